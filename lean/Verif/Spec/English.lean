import Verif.Spec.Inflection

/-! # Regular English inflection: how the forms of a word are spelled -/

namespace Spec
open Py Model

/-- Words in `s`, `x`, `z`, `ch` and `sh`. -/
def Sibilant (w : Str) : Prop := ∃ e ∈ [c!"s", c!"x", c!"z", c!"ch", c!"sh"], e <:+ w

/-- Plurals, third persons, progressives, comparatives and superlatives, by the way they are formed. -/
inductive Formation
  | pluralS | pluralEs | pluralIes | pluralVes | pluralMen | pluralIs | pluralOn | pluralUs
  | thirdS | thirdEs | thirdIes
  | ing | ingDrop | ingDouble | ingIc | ingIe
  | er | erDrop | erDouble | erY
  | est | estDrop | estDouble | estY
  deriving DecidableEq

def Formation.tag : Formation → Tag
  | pluralS | pluralEs | pluralIes | pluralVes | pluralMen | pluralIs | pluralOn | pluralUs => .NOUN
  | thirdS | thirdEs | thirdIes | ing | ingDrop | ingDouble | ingIc | ingIe => .VERB
  | _ => .ADJ

def Formation.suffix : Formation → Suffix
  | pluralS | pluralEs | pluralIes | pluralVes | pluralMen | pluralIs | pluralOn | pluralUs => .PLURAL
  | thirdS | thirdEs | thirdIes => .THIRD_PERSON
  | ing | ingDrop | ingDouble | ingIc | ingIe => .PROGRESSIVE
  | er | erDrop | erDouble | erY => .COMPARATIVE
  | _ => .SUPERLATIVE

/-- `Inflects f base form`: the form of the word that is formed this way. -/
inductive Inflects : Formation → Str → Str → Prop
  /-- games -/
  | pluralS (n) : ¬ Sibilant n → ¬ AfterConsonant 1 c!"y" n → Inflects .pluralS n (n ++ c!"s")
  /-- foxes, heroes -/
  | pluralEs (n) : Sibilant n ∨ AfterConsonant 1 c!"o" n → Inflects .pluralEs n (n ++ c!"es")
  /-- cities -/
  | pluralIes (s c) : consonant c → Inflects .pluralIes (s ++ [c] ++ c!"y") (s ++ [c] ++ c!"ies")
  /-- wolves -/
  | pluralF (s) : Inflects .pluralVes (s ++ c!"f") (s ++ c!"ves")
  /-- knives -/
  | pluralFe (s) : Inflects .pluralVes (s ++ c!"fe") (s ++ c!"ves")
  /-- policemen -/
  | pluralMen (s) : Inflects .pluralMen (s ++ c!"man") (s ++ c!"men")
  /-- analyses -/
  | pluralIs (s) : Inflects .pluralIs (s ++ c!"is") (s ++ c!"es")
  /-- criteria -/
  | pluralOn (s) : Inflects .pluralOn (s ++ c!"on") (s ++ c!"a")
  /-- fungi -/
  | pluralUs (s) : Inflects .pluralUs (s ++ c!"us") (s ++ c!"i")
  /-- bakes -/
  | thirdS (v) : ¬ Sibilant v → ¬ AfterConsonant 1 c!"y" v → Inflects .thirdS v (v ++ c!"s")
  /-- fixes, goes -/
  | thirdEs (v) : Sibilant v ∨ AfterConsonant 1 c!"o" v → Inflects .thirdEs v (v ++ c!"es")
  /-- tries -/
  | thirdIes (s c) : consonant c → Inflects .thirdIes (s ++ [c] ++ c!"y") (s ++ [c] ++ c!"ies")
  /-- barking, seeing -/
  | ing (v) : Inflects .ing v (v ++ c!"ing")
  /-- baking -/
  | ingDrop (s c) : c ∉ c!"eioy" → Inflects .ingDrop (s ++ [c] ++ c!"e") (s ++ [c] ++ c!"ing")
  /-- running -/
  | ingDouble (s v c) : vowel v → consonant c → Inflects .ingDouble (s ++ [v, c]) (s ++ [v, c, c] ++ c!"ing")
  /-- mimicking -/
  | ingIc (s) : Inflects .ingIc (s ++ c!"ic") (s ++ c!"icking")
  /-- lying -/
  | ingIe (s) : Inflects .ingIe (s ++ c!"ie") (s ++ c!"ying")
  /-- taller -/
  | er (a) : Inflects .er a (a ++ c!"er")
  /-- larger -/
  | erDrop (s) : Inflects .erDrop (s ++ c!"e") (s ++ c!"er")
  /-- bigger -/
  | erDouble (s v c) : vowel v → consonant c → Inflects .erDouble (s ++ [v, c]) (s ++ [v, c, c] ++ c!"er")
  /-- happier -/
  | erY (s c) : consonant c → Inflects .erY (s ++ [c] ++ c!"y") (s ++ [c] ++ c!"ier")
  /-- tallest -/
  | est (a) : Inflects .est a (a ++ c!"est")
  /-- largest -/
  | estDrop (s) : Inflects .estDrop (s ++ c!"e") (s ++ c!"est")
  /-- biggest -/
  | estDouble (s v c) : vowel v → consonant c → Inflects .estDouble (s ++ [v, c]) (s ++ [v, c, c] ++ c!"est")
  /-- happiest -/
  | estY (s c) : consonant c → Inflects .estY (s ++ [c] ++ c!"y") (s ++ [c] ++ c!"iest")

/-- The words whose forms are read as such.  Most of the conditions are lengths; the others exclude `sieve`, `pelvis`,
`trick`, `grille` and `lie`, whose forms are read as those of other words. -/
def Legible : Formation → Str → Prop
  | .pluralS, n => 2 ≤ n.length ∧ (c!"e" <:+ n → 3 ≤ n.length) ∧ ¬ AfterConsonant 1 c!"ieve" n
  | .pluralEs, n => 2 ≤ n.length
  | .pluralIes, n => 3 ≤ n.length
  | .pluralVes, n => 3 ≤ n.length ∧ (c!"fe" <:+ n → 4 ≤ n.length ∧ ¬ c!"iefe" <:+ n)
  | .pluralMen, n => 5 ≤ n.length
  | .pluralIs, n => 4 ≤ n.length ∧ ¬ c!"vis" <:+ n ∧ ¬ c!"iis" <:+ n
  | .pluralOn, n => 7 ≤ n.length
  | .pluralUs, n => 6 ≤ n.length
  | .thirdS, v => 2 ≤ v.length ∧ (c!"e" <:+ v → 3 ≤ v.length) ∧ ¬ AfterConsonant 2 c!"ick" v
  | .thirdEs, v => 2 ≤ v.length
  | .thirdIes, _ => True
  | .ing, v => 3 ≤ v.length ∧ ¬ AfterConsonant 2 c!"ick" v
  | .ingDrop, v => 4 ≤ v.length ∧ ¬ c!"icke" <:+ v ∧ ¬ Doubled c!"e" v
  | .ingDouble, v => 3 ≤ v.length
  | .ingIc, v => AfterConsonant 2 c!"ic" v
  | .ingIe, _ => False
  | .er, a | .est, a => 3 ≤ a.length ∧ ¬ AfterConsonant 2 c!"i" a
  | .erDrop, a | .estDrop, a => 4 ≤ a.length ∧ ¬ AfterConsonant 2 c!"ie" a ∧ ¬ Doubled c!"e" a
  | .erDouble, a | .estDouble, a => 3 ≤ a.length
  | .erY, a | .estY, a => 3 ≤ a.length

end Spec
