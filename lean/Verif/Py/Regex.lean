import Lean
import Verif.Py.Str

/-! # Regular expressions of python's `re` module

The preprocessing code (/repo/scrappybara/preprocessing) is a pipeline of `re.sub`, `re.search`, `re.fullmatch`,
`re.split` and `re.finditer`.  This file models the part of `re` that its patterns use.

* A pattern is a syntax tree (`Re`).  The terms `re% r"…"` and `rei% r"…"` (flag `re.I`) translate the pattern text of
  the code into the tree when the file is elaborated, so the patterns of the model are the pattern texts of the code.
* `Re.run` is the backtracking matcher: the list of all ways to match at a position, in the order in which python's
  engine tries them.  The match of the engine is the head of that list.
* The properties of characters that python takes from the Unicode database are a parameter (`CharDB`), constrained to
  the facts needed; for ASCII characters they are fixed.

Simplifications: iterations of a repetition that consume nothing are not attempted and empty matches are skipped by
`sub`, `search`, `split` and `finditer`.  Neither occurs in the patterns of the code: `minLen` and `progress` below are
checked for every pattern by `allPatterns_consume` in `Verif/Lemmas/Preprocessing.lean` (see also `Re.matchAt_eq_head`).
Groups inside a lookaround are not recorded (the code has one, and its group is not used). -/

namespace Py

/-- The part of the Unicode database used by the patterns: `\w` (`str.isalnum()` or `_`) and `\d` (`str.isdecimal()`),
and the value of a decimal digit (`int`).  ASCII is fixed, white space is never a word character, and the punctuation
marks that the code names explicitly are not word characters. -/
structure CharDB where
  word : Char → Bool
  digit : Char → Bool
  digitVal : Char → Nat
  word_ascii : ∀ c : Char, c.toNat < 128 → word c = (c.isAlphanum || c == '_')
  digit_ascii : ∀ c : Char, c.toNat < 128 → digit c = c.isDigit
  digitVal_ascii : ∀ c : Char, c.isDigit = true → digitVal c = c.toNat - 48
  digit_word : ∀ c : Char, digit c = true → word c = true
  word_space : ∀ c : Char, isSpace c = true → word c = false
  word_marks : ∀ c ∈ ['‘', '’', '′', '“', '”', '″', '–', '—', '…', '༺', '༻', '⦅', '⦆', '¶'], word c = false

/-- One item of a character class. -/
inductive Item where
  | ch (c : Char)
  | range (a b : Char)
  | digit
  | word
  | space
  /-- everything but the newline (`.`) -/
  | dot
  deriving DecidableEq, Repr, Lean.ToExpr

/-- ASCII lower case of a letter. -/
def lowerLetter (c : Char) : Char := if 65 ≤ c.toNat && c.toNat ≤ 90 then Char.ofNat (c.toNat + 32) else c

/-- The character `c` folded for a case-insensitive comparison with an ASCII letter: ASCII upper case letters go to
lower case, and four more characters fold to a letter (`İ`, `ı` to `i`, `ſ` to `s`, the Kelvin sign to `k`). -/
def foldCase (c : Char) : Char :=
  if c.toNat = 0x130 ∨ c.toNat = 0x131 then 'i' else if c.toNat = 0x17F then 's' else if c.toNat = 0x212A then 'k'
  else lowerLetter c

/-- Does the character belong to the item (`ic`: flag `re.I`)? -/
def Item.test (db : CharDB) (ic : Bool) : Item → Char → Bool
  | .ch a, c => if ic then foldCase a == foldCase c else a == c
  | .range a b, c =>
    if ic then (lowerLetter a).toNat ≤ (foldCase c).toNat && (foldCase c).toNat ≤ (lowerLetter b).toNat
    else a.toNat ≤ c.toNat && c.toNat ≤ b.toNat
  | .digit, c => db.digit c
  | .word, c => db.word c
  | .space, c => isSpace c
  | .dot, c => c != '\n'

/-- A character class: items, negation and the flag `re.I`. -/
structure Cls where
  neg : Bool
  ic : Bool
  items : List Item
  deriving DecidableEq, Repr, Lean.ToExpr

def Cls.test (db : CharDB) (k : Cls) (c : Char) : Bool := (k.items.any fun i => i.test db k.ic c) != k.neg

/-- Patterns. -/
inductive Re where
  | eps
  | cls (k : Cls)
  | seq (a b : Re)
  | alt (a b : Re)
  /-- `a{min,}`, greedy or lazy -/
  | rep (min : Nat) (greedy : Bool) (a : Re)
  | group (n : Nat) (a : Re)
  /-- `^` -/
  | bos
  /-- `$` -/
  | eos
  /-- `\b` -/
  | wordB
  /-- `(?=a)`, `(?!a)` -/
  | ahead (neg : Bool) (a : Re)
  /-- `(?<=a)`, `(?<!a)` -/
  | behind (neg : Bool) (a : Re)
  deriving DecidableEq, Repr, Lean.ToExpr

/-- A state of the matcher: the characters before the position (nearest first), those after it, and the groups closed so
far (last first). -/
structure St where
  pre : Str
  rest : Str
  caps : List (Nat × Str)
  deriving DecidableEq, Repr

/-- Width of a pattern of fixed width (used for lookbehinds). -/
def Re.width : Re → Nat
  | .eps => 0
  | .cls _ => 1
  | .seq a b => a.width + b.width
  | .alt a _ => a.width
  | .rep n _ a => n * a.width
  | .group _ a => a.width
  | .bos => 0
  | .eos => 0
  | .wordB => 0
  | .ahead _ _ => 0
  | .behind _ _ => 0

/-- Exactly `n` iterations. -/
def times (f : St → List St) : Nat → St → List St
  | 0, s => [s]
  | n + 1, s => (f s).flatMap (times f n)

/-- Any number of further iterations, each consuming something; `fuel` bounds their number. -/
def many (f : St → List St) (greedy : Bool) : Nat → St → List St
  | 0, s => [s]
  | fuel + 1, s =>
    let more := ((f s).filter fun t => t.rest.length < s.rest.length).flatMap (many f greedy fuel)
    if greedy then more ++ [s] else s :: more

/-- Is the position at a word boundary? -/
def atWordB (db : CharDB) (s : St) : Bool :=
  (match s.pre with | [] => false | c :: _ => db.word c) != (match s.rest with | [] => false | c :: _ => db.word c)

/-- All matches of a pattern from a state, in the order in which they are tried. -/
def Re.run (db : CharDB) : Re → St → List St
  | .eps, s => [s]
  | .cls k, s =>
    match s.rest with
    | [] => []
    | c :: cs => if k.test db c then [⟨c :: s.pre, cs, s.caps⟩] else []
  | .seq a b, s => (a.run db s).flatMap (b.run db)
  | .alt a b, s => a.run db s ++ b.run db s
  | .rep n greedy a, s => (times (a.run db) n s).flatMap fun t => many (a.run db) greedy t.rest.length t
  | .group n a, s =>
    (a.run db s).map fun t => ⟨t.pre, t.rest, (n, s.rest.take (s.rest.length - t.rest.length)) :: t.caps⟩
  | .bos, s => if s.pre.isEmpty then [s] else []
  | .eos, s => if s.rest.isEmpty || s.rest == ['\n'] then [s] else []
  | .wordB, s => if atWordB db s then [s] else []
  | .ahead neg a, s => if (a.run db s).isEmpty == neg then [s] else []
  | .behind neg a, s =>
    let w := a.width
    let found := decide (w ≤ s.pre.length) &&
      (a.run db ⟨s.pre.drop w, (s.pre.take w).reverse ++ s.rest, s.caps⟩).any
        fun t => t.rest.length == s.rest.length
    if found == neg then [] else [s]

/-! ### The functions of the module `re` -/

/-- The non-empty match at a position (`pattern.match(text, pos)`). -/
def Re.matchAt (db : CharDB) (r : Re) (pre rest : Str) : Option St :=
  match (r.run db ⟨pre, rest, []⟩).head? with
  | some t => if t.rest.length < rest.length then some t else none
  | none => none

/-- `re.search`, started at a position: the text skipped and the match found, as the states at its two ends. -/
def Re.searchFrom (db : CharDB) (r : Re) : Str → Str → Option (St × St)
  | pre, [] => (r.matchAt db pre []).map fun t => (⟨pre, [], []⟩, t)
  | pre, c :: cs =>
    match r.matchAt db pre (c :: cs) with
    | some t => some (⟨pre, c :: cs, []⟩, t)
    | none => r.searchFrom db (c :: pre) cs

/-- `re.search(pattern, text)` and `.group()` -/
def Re.search (db : CharDB) (r : Re) (text : Str) : Option Str :=
  (r.searchFrom db [] text).map fun (s, t) => s.rest.take (s.rest.length - t.rest.length)

/-- `re.fullmatch(pattern, text)` (whether it matches). -/
def Re.fullmatch (db : CharDB) (r : Re) (text : Str) : Bool := (r.run db ⟨[], text, []⟩).any fun t => t.rest.isEmpty

/-- One item of a replacement text. -/
inductive Tp where
  | lit (c : Char)
  /-- `\g<n>` -/
  | ref (n : Nat)
  deriving DecidableEq, Repr, Lean.ToExpr

/-- The text of a group; a group that took no part is empty. -/
def capText (caps : List (Nat × Str)) (n : Nat) : Str := ((caps.find? fun p => p.1 == n).map Prod.snd).getD []

/-- The replacement text of a match: `whole` is the matched text. -/
def expand (whole : Str) (caps : List (Nat × Str)) (tpl : List Tp) : Str :=
  tpl.flatMap fun
    | .lit c => [c]
    | .ref n => if n = 0 then whole else capText caps n

/-- `re.sub`, from a position on; `fuel` is the number of characters left. -/
def Re.subFrom (db : CharDB) (r : Re) (tpl : List Tp) : Nat → Str → Str → Str
  | 0, _, rest => rest
  | fuel + 1, pre, rest =>
    match r.matchAt db pre rest with
    | some t => expand (rest.take (rest.length - t.rest.length)) t.caps tpl ++ r.subFrom db tpl fuel t.pre t.rest
    | none =>
      match rest with
      | [] => []
      | c :: cs => c :: r.subFrom db tpl fuel (c :: pre) cs

/-- `re.sub(pattern, replacement, text)` -/
def Re.sub (db : CharDB) (r : Re) (tpl : List Tp) (text : Str) : Str := r.subFrom db tpl text.length [] text

/-- The pieces of a text cut at the matches of a pattern: `(text before, matched text)` for every match and the text
after the last one. -/
def Re.cutFrom (db : CharDB) (r : Re) : Nat → Str → Str → Str → List (Str × Str) × Str
  | 0, _, rest, cur => ([], cur.reverse ++ rest)
  | fuel + 1, pre, rest, cur =>
    match r.matchAt db pre rest with
    | some t =>
      let (ms, last) := r.cutFrom db fuel t.pre t.rest []
      ((cur.reverse, rest.take (rest.length - t.rest.length)) :: ms, last)
    | none =>
      match rest with
      | [] => ([], cur.reverse)
      | c :: cs => r.cutFrom db fuel (c :: pre) cs (c :: cur)

def Re.cut (db : CharDB) (r : Re) (text : Str) : List (Str × Str) × Str := r.cutFrom db text.length [] text []

/-- `re.split(pattern, text)` for a pattern without groups. -/
def Re.split (db : CharDB) (r : Re) (text : Str) : List Str :=
  let (ms, last) := r.cut db text
  ms.map Prod.fst ++ [last]

/-- Start positions of the matches, from the pieces. -/
def spansFrom : Nat → List (Str × Str) → List (Str × Nat × Nat)
  | _, [] => []
  | i, (before, m) :: ms =>
    (m, i + before.length, i + before.length + m.length) :: spansFrom (i + before.length + m.length) ms

/-- `[(m.group(), m.start(), m.end()) for m in re.finditer(pattern, text)]` -/
def Re.finditer (db : CharDB) (r : Re) (text : Str) : List (Str × Nat × Nat) := spansFrom 0 (r.cut db text).1

/-- The least number of characters of a match. -/
def Re.minLen : Re → Nat
  | .eps => 0
  | .cls _ => 1
  | .seq a b => a.minLen + b.minLen
  | .alt a b => min a.minLen b.minLen
  | .rep n _ a => n * a.minLen
  | .group _ a => a.minLen
  | .bos => 0
  | .eos => 0
  | .wordB => 0
  | .ahead _ _ => 0
  | .behind _ _ => 0

/-- Every iteration of a repetition consumes something. -/
def Re.progress : Re → Bool
  | .seq a b => a.progress && b.progress
  | .alt a b => a.progress && b.progress
  | .rep _ _ a => decide (0 < a.minLen) && a.progress
  | .group _ a => a.progress
  | .ahead _ a => a.progress
  | .behind _ a => a.progress
  | _ => true

/-! ### Reading pattern texts -/

namespace ReParse

/-- The class of an escaped character. -/
def escape (c : Char) : Item :=
  if c = 's' then .space else if c = 'd' then .digit else if c = 'w' then .word
  else if c = 't' then .ch '\t' else if c = 'n' then .ch '\n' else if c = 'r' then .ch '\r' else .ch c

/-- The items of a class up to `]`. -/
def items : Nat → Str → List Item → Option (List Item × Str)
  | 0, _, _ => none
  | _ + 1, [], _ => none
  | _ + 1, ']' :: s, acc => some (acc.reverse, s)
  | n + 1, '\\' :: c :: s, acc => items n s (escape c :: acc)
  | n + 1, a :: '-' :: b :: s, acc =>
    if b = ']' then items n ('-' :: b :: s) (.ch a :: acc) else items n s (.range a b :: acc)
  | n + 1, a :: s, acc => items n s (.ch a :: acc)

/-- Digits of a number. -/
def number : Str → Nat → Nat × Str
  | [], k => (k, [])
  | c :: s, k => if c.isDigit then number s (10 * k + (c.toNat - 48)) else (k, c :: s)

/-- A quantifier after an atom. -/
def quant (a : Re) : Str → Re × Str
  | '*' :: '?' :: s => (.rep 0 false a, s)
  | '*' :: s => (.rep 0 true a, s)
  | '+' :: s => (.rep 1 true a, s)
  | '?' :: s => (.alt a .eps, s)
  | '{' :: s =>
    match s with
    | c :: _ =>
      if c.isDigit then
        match number s 0 with
        | (k, ',' :: '}' :: s') => (.rep k true a, s')
        | _ => (a, '{' :: s)
      else (a, '{' :: s)
    | [] => (a, '{' :: s)
  | s => (a, s)

/-- Sequence without a superfluous empty pattern at its end. -/
def cons (a : Re) : Re → Re
  | .eps => a
  | b => .seq a b

mutual
/-- Alternatives, up to `)` or the end; `g` is the number of the next group. -/
def alts : Nat → Bool → Nat → Str → Option (Re × Nat × Str)
  | 0, _, _, _ => none
  | n + 1, ic, g, s =>
    match seqs n ic g s with
    | some (a, g, '|' :: s) =>
      match alts n ic g s with
      | some (b, g, s) => some (.alt a b, g, s)
      | none => none
    | r => r

/-- A sequence of quantified atoms. -/
def seqs : Nat → Bool → Nat → Str → Option (Re × Nat × Str)
  | 0, _, _, _ => none
  | _ + 1, _, g, [] => some (.eps, g, [])
  | n + 1, ic, g, c :: s =>
    if c = ')' ∨ c = '|' then some (.eps, g, c :: s)
    else
      match atom n ic g (c :: s) with
      | none => none
      | some (a, g, s) =>
        let (a, s) := quant a s
        match seqs n ic g s with
        | some (b, g, s) => some (cons a b, g, s)
        | none => none

/-- One atom. -/
def atom : Nat → Bool → Nat → Str → Option (Re × Nat × Str)
  | 0, _, _, _ => none
  | n + 1, ic, g, s =>
    let close (f : Re → Re) (r : Option (Re × Nat × Str)) : Option (Re × Nat × Str) :=
      match r with
      | some (a, g, ')' :: s) => some (f a, g, s)
      | _ => none
    match s with
    | [] => none
    | '(' :: '?' :: '=' :: s => close (.ahead false) (alts n ic g s)
    | '(' :: '?' :: '!' :: s => close (.ahead true) (alts n ic g s)
    | '(' :: '?' :: '<' :: '=' :: s => close (.behind false) (alts n ic g s)
    | '(' :: '?' :: '<' :: '!' :: s => close (.behind true) (alts n ic g s)
    | '(' :: s => close (.group g) (alts n ic (g + 1) s)
    | '[' :: '^' :: s => (items (s.length + 1) s []).map fun (l, s) => (.cls ⟨true, ic, l⟩, g, s)
    | '[' :: s => (items (s.length + 1) s []).map fun (l, s) => (.cls ⟨false, ic, l⟩, g, s)
    | '^' :: s => some (.bos, g, s)
    | '$' :: s => some (.eos, g, s)
    | '.' :: s => some (.cls ⟨false, ic, [.dot]⟩, g, s)
    | '\\' :: 'b' :: s => some (.wordB, g, s)
    | '\\' :: c :: s => some (.cls ⟨false, ic, [escape c]⟩, g, s)
    | c :: s => some (.cls ⟨false, ic, [.ch c]⟩, g, s)
end

/-- The pattern of a text. -/
def parse (ic : Bool) (s : Str) : Option Re :=
  match alts (4 * s.length + 4) ic 1 s with
  | some (r, _, []) => some r
  | _ => none

/-- The replacement of a text: `\g<n>` is a reference. -/
def parseTpl : Nat → Str → List Tp
  | 0, _ => []
  | _ + 1, [] => []
  | n + 1, '\\' :: 'g' :: '<' :: s =>
    match number s 0 with
    | (k, '>' :: s') => .ref k :: parseTpl n s'
    | _ => parseTpl n s
  | n + 1, c :: s => .lit c :: parseTpl n s

end ReParse

open Lean Elab Term Meta in
/-- `re% r"…"`: the pattern `re.compile(r'…')`. -/
elab "re% " s:str : term => do
  match ReParse.parse false s.getString.toList with
  | some r => return toExpr r
  | none => throwError "bad pattern"

open Lean Elab Term Meta in
/-- `rei% r"…"`: the pattern `re.compile(r'…', re.I)`. -/
elab "rei% " s:str : term => do
  match ReParse.parse true s.getString.toList with
  | some r => return toExpr r
  | none => throwError "bad pattern"

open Lean Elab Term Meta in
/-- `tpl% r"…"`: the replacement text `r'…'`. -/
elab "tpl% " s:str : term => do
  return toExpr (ReParse.parseTpl (s.getString.length + 1) s.getString.toList)

/-- A character database without any word character beyond ASCII (for examples). -/
def asciiDB : CharDB where
  word c := c.isAlphanum || c == '_'
  digit c := c.isDigit
  digitVal c := c.toNat - 48
  word_ascii _ _ := rfl
  digit_ascii _ _ := rfl
  digitVal_ascii _ _ := rfl
  digit_word c h := by simp [Char.isAlphanum, h]
  word_space c h := by
    rw [Bool.or_eq_false_iff]
    unfold isSpace at h
    simp only [Bool.or_eq_true, Bool.and_eq_true, decide_eq_true_eq, beq_iff_eq] at h
    constructor
    · have e : c.toNat = c.val.toNat := rfl
      have hA : 'A'.val.toNat = 65 := rfl
      have hZ : 'Z'.val.toNat = 90 := rfl
      have ha : 'a'.val.toNat = 97 := rfl
      have hz : 'z'.val.toNat = 122 := rfl
      have h0 : '0'.val.toNat = 48 := rfl
      have h9 : '9'.val.toNat = 57 := rfl
      simp only [Char.isAlphanum, Char.isAlpha, Char.isUpper, Char.isLower, Char.isDigit, ge_iff_le,
        UInt32.le_iff_toNat_le, Bool.or_eq_false_iff, Bool.and_eq_false_iff, decide_eq_false_iff_not]
      omega
    · rw [beq_eq_false_iff_ne]
      rintro rfl
      revert h
      decide
  word_marks := by decide

end Py
