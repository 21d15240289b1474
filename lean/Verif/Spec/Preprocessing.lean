import Verif.Py.Str
import Verif.Model.Text

/-! Specifications for the preprocessing properties (C66–C74), independent of the regular expressions of the code. -/

namespace Spec
open Py

/-- Trimmed text with single spaces: every white space character is a blank, it is neither first nor last, and the
character after it is not white space. -/
def SingleSpaced (t : Str) : Prop :=
  ∀ a c b, t = a ++ c :: b → isSpace c = true → c = ' ' ∧ a ≠ [] ∧ ∃ d b', b = d :: b' ∧ isSpace d = false

/-- A token: not empty, no white space. -/
def IsToken (w : Str) : Prop := w ≠ [] ∧ ∀ c ∈ w, isSpace c = false

/-- The only plain word that is split: "cannot", in any case. -/
def splitCannot (w : Str) : List Str :=
  if w.map Char.toLower = ['c', 'a', 'n', 'n', 'o', 't'] then [w.take 3, w.drop 3] else [w]

/-- The sentence enders: runs of `.`, `?`, `!`, `:`, and the pilcrow. -/
def Ender (t : Str) : Prop := (t ≠ [] ∧ ∀ c ∈ t, c ∈ ['.', '?', '!', ':']) ∨ t = ['¶']

/-- The text with every cut-out part replaced by a numbered marker between two blanks. -/
def marked (starter ender : Char) (repr : Nat → Str) : Nat → List (Str × Str) → Str → Str
  | _, [], last => last
  | k, (before, _) :: ms, last =>
    before ++ [' ', starter] ++ repr k ++ [ender, ' '] ++ marked starter ender repr (k + 1) ms last

/-- The text is put together from pieces: text before and cut-out part (with its delimiters), repeatedly, and a rest. -/
def assembled (op cl : Char) : List (Str × Str) → Str → Str
  | [], last => last
  | (before, x) :: ms, last => before ++ [op] ++ x ++ [cl] ++ assembled op cl ms last

/-- Tab, line feed and carriage return. -/
def isBreak (c : Char) : Bool := c == '\t' || c == '\n' || c == '\r'

/-- The lines of a text: it is cut at the white space runs that contain a tab, a line feed or a carriage return. -/
inductive Lines : Str → List Str → Prop
  | last (l : Str) : (∀ c ∈ l, isBreak c = false) → Lines l [l]
  | cut (l gap rest : Str) (ls : List Str) : (∀ c ∈ l, isBreak c = false) → l.getLast?.all (fun c => !isSpace c) →
      (∀ c ∈ gap, isSpace c = true) → (∃ c ∈ gap, isBreak c = true) → rest.head?.all (fun c => !isSpace c) →
      Lines rest ls → Lines (l ++ gap ++ rest) (l :: ls)

/-! ### The sanitized text of the tokenizer -/

/-- Typographic quotes become straight ones. -/
def straight (c : Char) : Char :=
  if c ∈ ['‘', '’', '′'] then '\'' else if c ∈ ['“', '”', '″'] then '"' else c

/-- En dash and em dash. -/
def isDash (c : Char) : Bool := c == '–' || c == '—'

/-- Each run of dashes becomes a hyphen between two blanks. -/
def undash : Str → Str
  | [] => []
  | c :: cs =>
    if isDash c then (if cs.head?.any isDash then undash cs else [' ', '-', ' '] ++ undash cs) else c :: undash cs

/-- The text with straight quotes, hyphens for dashes, and single blanks between its words. -/
def tidy (text : Str) : Str := Model.join [' '] (splitWs (undash (text.map straight)))

/-- The text without its white space. -/
def ink (text : Str) : Str := text.filter fun c => !isSpace c

/-- A number directly followed by a quote, as in 6'2" -/
def Measure (digit : Char → Bool) (w : Str) : Prop :=
  ∃ d v q, w = d :: (v ++ [q]) ∧ digit d = true ∧ (∀ c ∈ v, digit c = true ∨ c = ',' ∨ c = '.') ∧
    (straight q = '\'' ∨ straight q = '"')

/-- Texts that do not use the tokenizer's own alphabet (underscores, the names NSD, NSGE and NSLE) and contain no web
address (no slash, no "www." in any case). -/
structure Ordinary (text : Str) : Prop where
  underscore : '_' ∉ text
  names : ∀ n ∈ [['N', 'S', 'D'], ['N', 'S', 'G', 'E'], ['N', 'S', 'L', 'E']], ¬ n <:+: text
  slash : '/' ∉ text
  www : ∀ w : Str, w.map Char.toLower = ['w', 'w', 'w', '.'] → ¬ w <:+: text

/-- Texts that do not use the tokenizer's own alphabet and contain no web address: no "www." in any case and, if there are
slashes, no word has two in a row or one after a dot, and no word is an abbreviation of "and" by an apostrophe. -/
structure Prose (text : Str) : Prop where
  underscore : '_' ∉ text
  names : ∀ n ∈ [['N', 'S', 'D'], ['N', 'S', 'G', 'E'], ['N', 'S', 'L', 'E']], ¬ n <:+: text
  www : ∀ w : Str, w.map Char.toLower = ['w', 'w', 'w', '.'] → ¬ w <:+: text
  slash : '/' ∈ text → ∀ w ∈ splitWs (tidy text), (¬ ['/', '/'] <:+: w) ∧ '/' ∉ w.dropWhile (· ≠ '.') ∧
    w.map Char.toLower ∉ [['\'', 'n', '\''], ['\'', 'n'], ['n', '\'']]

theorem Ordinary.prose {text : Str} (h : Ordinary text) : Prose text where
  underscore := h.underscore
  names := h.names
  www := h.www
  slash hs := absurd hs h.slash

/-- What can surround a word: white space, dashes, double quotes and brackets. -/
def edge (c : Char) : Bool := isSpace c || isDash c || c == '"' || c == '(' || c == ')'

/-- The word stands on its own somewhere in the text. -/
def Alone (w text : Str) : Prop := ∃ x y, text = x ++ w ++ y ∧ x.getLast?.all edge ∧ y.head?.all edge

/-- Texts that do not use the tokenizer's own alphabet and contain no web address: no "www." in any case and, if there are
slashes, no two in a row, none after a dot without white space between them, and no abbreviation of "and" by an apostrophe
that stands on its own. -/
structure Writing (text : Str) : Prop where
  underscore : '_' ∉ text
  names : ∀ n ∈ [['N', 'S', 'D'], ['N', 'S', 'G', 'E'], ['N', 'S', 'L', 'E']], ¬ n <:+: text
  www : ∀ w : Str, w.map Char.toLower = ['w', 'w', 'w', '.'] → ¬ w <:+: text
  slash : '/' ∈ text → (¬ ['/', '/'] <:+: text) ∧
    (∀ u : Str, (∀ c ∈ u, isSpace c = false) → ¬ '.' :: (u ++ ['/']) <:+: text) ∧
    ∀ w : Str, (w.map fun c => (straight c).toLower) ∈ [['\'', 'n', '\''], ['\'', 'n'], ['n', '\'']] → ¬ Alone w text

theorem Ordinary.writing {text : Str} (h : Ordinary text) : Writing text where
  underscore := h.underscore
  names := h.names
  www := h.www
  slash hs := absurd hs h.slash

end Spec
