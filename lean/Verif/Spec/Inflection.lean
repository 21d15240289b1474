import Verif.Model.Normalization
import Verif.Spec.LangModel

/-! # Regular inflection: how an inflected word may be read -/

namespace Spec
open Py Model

/-- Consonants and vowels as the lemmatizer takes them, `y` being a vowel. -/
def consonant (c : Char) : Prop := c ∈ c!"bcdfghjklmnpqrstvwxz"
def vowel (c : Char) : Prop := c ∈ c!"aeiouy"

/-- The ending after at least `n` characters. -/
def After (n : Nat) (e w : Str) : Prop := ∃ s : Str, w = s ++ e ∧ n ≤ s.length

/-- The ending after at least `n` characters, the last of which is a consonant. -/
def AfterConsonant (n : Nat) (e w : Str) : Prop := ∃ (s : Str) (c : Char), w = s ++ [c] ++ e ∧ consonant c ∧ n ≤ s.length + 1

/-- The ending after a vowel and a doubled consonant, and something before them. -/
def Doubled (e w : Str) : Prop := ∃ (s : Str) (v c : Char), w = s ++ [v, c, c] ++ e ∧ vowel v ∧ consonant c ∧ s ≠ []

/-- `Reading known adjs tag w stem es suffix`: the word `w` with this tag is read as the inflected form, with this suffix,
of one of the words made of `stem` and an ending of `es`. -/
inductive Reading (known : Str → Prop) (adjs : List Str) : Tag → Str → Str → List Str → Suffix → Prop
  /-- mimicking, of mimic -/
  | icking (s c) : consonant c → s ≠ [] → Reading known adjs .VERB (s ++ [c] ++ c!"icking") (s ++ [c]) [c!"ic"] .PROGRESSIVE
  /-- formatting, of format or formatt -/
  | ingDoubled (s v c) : vowel v → consonant c → s ≠ [] →
      Reading known adjs .VERB (s ++ [v, c, c] ++ c!"ing") (s ++ [v]) [[c], [c, c]] .PROGRESSIVE
  /-- baking, of bak or bake -/
  | ing (s c) : 2 ≤ s.length → ¬ AfterConsonant 2 c!"icking" (s ++ [c] ++ c!"ing") → ¬ Doubled c!"ing" (s ++ [c] ++ c!"ing") →
      Reading known adjs .VERB (s ++ [c] ++ c!"ing") s [[c], [c, 'e']] .PROGRESSIVE
  /-- mimicked, of mimic -/
  | icked (s c) : consonant c → s ≠ [] → Reading known adjs .VERB (s ++ [c] ++ c!"icked") (s ++ [c]) [c!"ic"] .PAST
  /-- formatted, of format or formatt -/
  | edDoubled (s v c) : vowel v → consonant c → s ≠ [] →
      Reading known adjs .VERB (s ++ [v, c, c] ++ c!"ed") (s ++ [v]) [[c], [c, c]] .PAST
  /-- tried, of try -/
  | ied (s c) : consonant c → s ≠ [] → Reading known adjs .VERB (s ++ [c] ++ c!"ied") (s ++ [c]) [c!"y"] .PAST
  /-- baked, of bak or bake -/
  | ed (s c) : s ≠ [] → ¬ AfterConsonant 2 c!"icked" (s ++ [c] ++ c!"ed") → ¬ Doubled c!"ed" (s ++ [c] ++ c!"ed") →
      ¬ AfterConsonant 2 c!"ied" (s ++ [c] ++ c!"ed") →
      Reading known adjs .VERB (s ++ [c] ++ c!"ed") s [[c], [c, 'e']] .PAST
  /-- mimicks, of mimic -/
  | icks (s c) : consonant c → s ≠ [] → Reading known adjs .VERB (s ++ [c] ++ c!"icks") (s ++ [c]) [c!"ic"] .THIRD_PERSON
  /-- ties or tries, of ty or tie, of try or trie -/
  | verbIes (s c) : consonant c → Reading known adjs .VERB (s ++ [c] ++ c!"ies") (s ++ [c]) [c!"y", c!"ie"] .THIRD_PERSON
  /-- bakes, of bak or bake -/
  | verbEs (s c) : s ≠ [] → ¬ AfterConsonant 1 c!"ies" (s ++ [c] ++ c!"es") →
      Reading known adjs .VERB (s ++ [c] ++ c!"es") s [[c], [c, 'e']] .THIRD_PERSON
  /-- formats, of format -/
  | verbS (s c) : s ≠ [] → ¬ AfterConsonant 2 c!"icks" (s ++ [c] ++ c!"s") → ¬ After 2 c!"es" (s ++ [c] ++ c!"s") →
      Reading known adjs .VERB (s ++ [c] ++ c!"s") s [[c]] .THIRD_PERSON
  /-- criteria, of criterion -/
  | a (s) : 5 ≤ s.length → Reading known adjs .NOUN (s ++ c!"a") s [c!"on"] .PLURAL
  /-- thieves, of thief -/
  | ieves (s c) : consonant c → Reading known adjs .NOUN (s ++ [c] ++ c!"ieves") (s ++ [c]) [c!"ief"] .PLURAL
  /-- fungi, of fungus -/
  | i (s) : 4 ≤ s.length → Reading known adjs .NOUN (s ++ c!"i") s [c!"us"] .PLURAL
  /-- cities or cookies, of city or citie, of cooky or cookie -/
  | nounIes (s c) : consonant c → s ≠ [] → Reading known adjs .NOUN (s ++ [c] ++ c!"ies") (s ++ [c]) [c!"y", c!"ie"] .PLURAL
  /-- wolves, of wolf, wolfe or wolve -/
  | ves (s) : 2 ≤ s.length → ¬ AfterConsonant 1 c!"ieves" (s ++ c!"ves") →
      Reading known adjs .NOUN (s ++ c!"ves") s [c!"f", c!"fe", c!"ve"] .PLURAL
  /-- policemen, of policeman -/
  | men (s) : 2 ≤ s.length → Reading known adjs .NOUN (s ++ c!"men") s [c!"man"] .PLURAL
  /-- analyses, of analys, analyse or analysis -/
  | nounEs (s c) : s ≠ [] → ¬ AfterConsonant 2 c!"ies" (s ++ [c] ++ c!"es") → ¬ After 2 c!"ves" (s ++ [c] ++ c!"es") →
      Reading known adjs .NOUN (s ++ [c] ++ c!"es") s [[c], [c, 'e'], [c, 'i', 's']] .PLURAL
  /-- gamers, of gamer; but not glass or gas, of which glasses or gases is known -/
  | nounS (s c) : s ≠ [] → c ≠ 's' → ¬ known (s ++ [c] ++ c!"ses") → ¬ After 2 c!"es" (s ++ [c] ++ c!"s") →
      Reading known adjs .NOUN (s ++ [c] ++ c!"s") s [[c]] .PLURAL
  /-- biggest, of big or bigg -/
  | estDoubled (s v c) : vowel v → consonant c → s ≠ [] →
      Reading known adjs .ADJ (s ++ [v, c, c] ++ c!"est") (s ++ [v]) [[c], [c, c]] .SUPERLATIVE
  /-- happiest, of happy -/
  | iest (s c) : consonant c → s ≠ [] → Reading known adjs .ADJ (s ++ [c] ++ c!"iest") (s ++ [c]) [c!"y"] .SUPERLATIVE
  /-- nicest, of nic or nice -/
  | est (s c) : 2 ≤ s.length → ¬ Doubled c!"est" (s ++ [c] ++ c!"est") → ¬ AfterConsonant 2 c!"iest" (s ++ [c] ++ c!"est") →
      Reading known adjs .ADJ (s ++ [c] ++ c!"est") s [[c], [c, 'e']] .SUPERLATIVE
  /-- bigger, of big or bigg -/
  | erDoubled (s v c) : vowel v → consonant c → s ≠ [] →
      Reading known adjs .ADJ (s ++ [v, c, c] ++ c!"er") (s ++ [v]) [[c], [c, c]] .COMPARATIVE
  /-- happier, of happy -/
  | ier (s c) : consonant c → s ≠ [] → Reading known adjs .ADJ (s ++ [c] ++ c!"ier") (s ++ [c]) [c!"y"] .COMPARATIVE
  /-- nicer, of nic or nice; but not clever, an adjective -/
  | er (s c) : 2 ≤ s.length → ¬ Doubled c!"er" (s ++ [c] ++ c!"er") → ¬ AfterConsonant 2 c!"ier" (s ++ [c] ++ c!"er") →
      s ++ [c] ++ c!"er" ∉ adjs → Reading known adjs .ADJ (s ++ [c] ++ c!"er") s [[c], [c, 'e']] .COMPARATIVE

/-- The words looked for before the candidates: subjects and auxiliaries before a verb, a candidate itself otherwise. -/
def wordsBefore (tag : Tag) (cands : List Str) : List Str :=
  if tag = .VERB then [c!"i", c!"you", c!"we", c!"they", c!"may", c!"might", c!"can", c!"could", c!"would", c!"should"] else cands

/-- The candidate behind each of the words, in the order of the candidates. -/
def inContext (tag : Tag) (cands : List Str) : List Str :=
  cands.flatMap fun c => (wordsBefore tag cands).map fun t => t ++ ' ' :: c

/-- The candidate the language model prefers: a single one has to have been counted; of several, the one of the most
probable pair, or without any pair the most probable one. -/
inductive Chosen (m : LM) (tag : Tag) (cands : List Str) (r : Str) : Prop
  | only : cands = [r] → m.hasNgram r 1 = true → Chosen m tag cands r
  | pair (t) : cands.length ≠ 1 → t ∈ wordsBefore tag cands → r ∈ cands → m.contains (t ++ ' ' :: r) = true →
      FirstMax m.logp (inContext tag cands) (t ++ ' ' :: r) → Chosen m tag cands r
  | alone : cands.length ≠ 1 → (∀ g ∈ inContext tag cands, m.contains g = false) → m.contains r = true →
      FirstMax m.logp cands r → Chosen m tag cands r

/-- No candidate is attested. -/
def Unattested (m : LM) (tag : Tag) (cands : List Str) : Prop :=
  (∀ r, cands = [r] → m.hasNgram r 1 = false) ∧
  (cands.length ≠ 1 → (∀ g ∈ inContext tag cands, m.contains g = false) ∧ ∀ c ∈ cands, m.contains c = false)

end Spec
