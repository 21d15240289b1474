import Verif.Spec.Semantics
import Verif.Spec.Pipeline
import Verif.Props.Normalization
import Verif.Model.Pipeline

/-! What a parse states, read off tokens and arcs. -/

namespace Spec
open Py Model

def relatives : List Str := [c!"that", c!"which", c!"who"]

def reflexives : List Str :=
  [c!"myself", c!"yourself", c!"yourselves", c!"himself", c!"herself", c!"itself", c!"ourself", c!"ourselves",
   c!"theirself", c!"themselves", c!"oneself"]

section
variable (t : Tree Dep Nat)

/-- A word with a node of its own: it takes part in the parse with at most one parent, is no function word and no part of a
flat expression. -/
structure Word (i : Nat) : Prop where
  inTree : (∃ d x, (d, x) ∈ t.children i) ∨ ∃ d p, (d, i) ∈ t.children p
  one : ∀ d p d' p', (d, i) ∈ t.children p → (d', i) ∈ t.children p' → p = p'
  up : ∀ d p, (d, i) ∈ t.children p → d ≠ .FLAT ∧ d ∉ functional
  down : ∀ x, (.FLAT, x) ∉ t.children i

/-- Not negated. -/
def positive (i : Nat) : Bool := (t.children i).all fun x => x.1 ≠ .NEG

/-- `j` is `i` or coordinated to it. -/
def Member (i j : Nat) : Prop := j = i ∨ (.AND, j) ∈ t.children i ∨ (.OR, j) ∈ t.children i

/-- No marker ("of", "than", "if"). -/
def Unmarked (i : Nat) : Prop := ∀ d x, (d, x) ∈ t.children i → d ≠ .MARK ∧ d ≠ .CMARK ∧ d ≠ .IMARK

end

section
variable (ck : Bool) (c : Logic) (tokens : List Str) (tg : List Tag) (t : Tree Dep Nat)

/-- `s` is the standard spelling of token `i`. -/
def Spelled (i : Nat) (s : Str) : Prop :=
  ∃ tok, tokens[i]? = some tok ∧ standardize c.lemmatizer.lm (c.lower tok) = .ok s

/-- `l` is the lemma of token `i` for its tag. -/
def LemmaOf (i : Nat) (l : Str) : Prop :=
  ∃ s tag x, Spelled c tokens i s ∧ tg[i]? = some tag ∧ c.lemmatizer.call s tag = .ok (l, x)

/-- Token `i`, a complement, is taken for a noun: a nominal, unless it has nothing attached and is listed as an adjective; or an
adjective that has nothing attached and is listed as a noun. -/
def AsNoun (i : Nat) : Prop := ∃ tag l, tg[i]? = some tag ∧ LemmaOf c tokens tg i l ∧
  ((tag ∈ nominal ∧ (l ∉ c.lemmatizer.adjs ∨ ∃ d x, (d, x) ∈ t.children i ∧ d ≠ .PART)) ∨
    (tag = .ADJ ∧ l ∈ c.nouns ∧ t.children i = []))

/-- Token `i`, a complement of a nominal, is not taken for a noun. -/
def NotNoun (i : Nat) : Prop := ∃ tag l, tg[i]? = some tag ∧ LemmaOf c tokens tg i l ∧
  ((tag ∉ nominal ∧ (tag = .ADJ → l ∉ c.nouns ∨ ∃ d x, (d, x) ∈ t.children i ∧ d ≠ .PART)) ∨
    (tag ∈ nominal ∧ l ∈ c.lemmatizer.adjs ∧ t.children i = []))

/-- "The cat food": token `j` is part of the compound noun `i`, a noun before it and its complement without marker. -/
structure PartOf (i j : Nat) : Prop where
  arc : (.CPL, j) ∈ t.children i
  before : j < i
  word : Word t j
  noun : AsNoun c tokens tg t j
  unmarked : Unmarked t j

/-- Token `j`, a complement of the nominal `i`, is no part of it: it has a marker, follows it or is no noun. -/
def NoPart (i j : Nat) : Prop := ¬ Unmarked t j ∨ Word t j ∧ (i < j ∨ NotNoun c tokens tg t j)

/-- Token `i` is part of a nominal. -/
def Inner (i : Nat) : Prop := ∃ p tag, PartOf c tokens tg t p i ∧ Word t p ∧ tg[p]? = some tag ∧ tag ∈ nominal

/-- Token `i` is part of nothing. -/
def Outer (i : Nat) : Prop := ∀ p, (.CPL, i) ∈ t.children p →
  ¬ Unmarked t i ∨ Word t p ∧ (p < i ∨ ∃ tag, tg[p]? = some tag ∧ tag ∉ nominal)

/-- With chunking (`ck`), the common noun `i` with lemma `l` that is part of nothing is written `w`, as the lemmas of itself, of its
parts, of their parts and so on, in the order of the sentence; all other nominals are written as their lemmas. -/
def Written (i : Nat) (tag : Tag) (l w : Str) : Prop :=
  (w = l ∧ (ck = false ∨ tag ≠ .NOUN ∨ (∀ j, (.CPL, j) ∈ t.children i → NoPart c tokens tg t i j) ∨ Inner c tokens tg t i)) ∨
  (ck = true ∧ tag = .NOUN ∧ Outer tg t i ∧ ∃ is ls, is.Pairwise (· < ·) ∧
    (∀ j, j ∈ is ↔ Relation.ReflTransGen (PartOf c tokens tg t) i j) ∧
    (∀ j ∈ is, ∀ x, (.CPL, x) ∈ t.children j → PartOf c tokens tg t j x ∨ NoPart c tokens tg t j x) ∧
    List.Forall₂ (LemmaOf c tokens tg) is ls ∧ w = List.intercalate c!" " ls)

/-- Token `i`, a nominal, is called `a` in tuples: its lemma, its compound, or the subject form of an object pronoun, with the
code of its tag. -/
def Called (i : Nat) (a : Argument) : Prop :=
  ∃ l tag w, LemmaOf c tokens tg i l ∧ tg[i]? = some tag ∧ tag ∈ nominal ∧ NounCode tag a.code ∧ a.isAff = true ∧
    Written ck c tokens tg t i tag l w ∧ a.word = if tag = .PRON then (Props.subjectOf l).getD l else w

/-- Token `i`, a verb, is said by the word `w`: its lemma and its particles. -/
def SaidBy (i : Nat) (w : Str) : Prop :=
  ∃ l ps, tg[i]? = some .VERB ∧ LemmaOf c tokens tg i l ∧ PartWords c.lower tokens (t.children i) i ps ∧
    w = List.intercalate c!" " (l :: ps)

/-- Token `j`, called `a`, is or is coordinated to token `i`, itself called `a₀` and attached to `v` by the label. -/
structure Stands (d : Dep) (v i j : Nat) (a₀ a : Argument) : Prop where
  arc : (d, i) ∈ t.children v
  word : Word t i
  called : Called ck c tokens tg t i a₀
  member : Member t i j
  word' : Word t j
  called' : Called ck c tokens tg t j a

/-- Token `i`, an adjective not listed as a noun, is called `b` in tuples: its lemma and particles, with code L when its
spelling is also a past form of a verb. -/
def Adjective (i : Nat) (b : Argument) : Prop :=
  ∃ s l ps l' x, Spelled c tokens i s ∧ tg[i]? = some .ADJ ∧ LemmaOf c tokens tg i l ∧ l ∉ c.nouns ∧
    PartWords c.lower tokens (t.children i) i ps ∧ c.lemmatizer.call s .VERB = .ok (l', x) ∧
    b.word = List.intercalate c!" " (l :: ps) ∧ b.isAff = true ∧
    b.code = if x = some .PAST ∧ (l' ≠ [] ∨ ps ≠ []) then c!"L" else c!"A"

/-- Token `i`, a nominal not listed as an adjective, or an adjective, is called `b` in tuples. -/
def Property (i : Nat) (b : Argument) : Prop :=
  (Called ck c tokens tg t i b ∧ ∀ l, LemmaOf c tokens tg i l → l ∉ c.lemmatizer.adjs) ∨ Adjective c tokens tg t i b

/-- Token `v'`, a verb without "to" and without subject of its own, that links no property and is no "there is", is coordinated to
`v`. -/
structure CoVerb (v v' : Nat) : Prop extends Word t v' where
  verb : tg[v']? = some .VERB
  arc : (.AND, v') ∈ t.children v ∨ (.OR, v') ∈ t.children v
  noSubj : ∀ x, (.SUBJ, x) ∉ t.children v'
  plain : ∀ d x, (d, x) ∈ t.children v' → d ≠ .PROP ∧ d ≠ .IPROP ∧ d ≠ .EXIST
  noTo : ¬ InfTo c.lower tokens (t.children v') v'

/-- Token `v` heads a statement: a verb without "to", neither subject, object nor coordinated, that links no property and is
no "there is". -/
structure Main (v : Nat) : Prop extends Word t v where
  verb : tg[v]? = some .VERB
  free : ∀ d p, (d, v) ∈ t.children p → d ≠ .SUBJ ∧ d ≠ .OBJ ∧ d ≠ .AND ∧ d ≠ .OR
  plain : ∀ d x, (d, x) ∈ t.children v → d ≠ .PROP ∧ d ≠ .IPROP ∧ d ≠ .EXIST
  noTo : ¬ InfTo c.lower tokens (t.children v) v

/-- "Songs are sung by people", with verb `v`, subject `s` and `s'` coordinated to it, past participle `p` of the verb `l` with
particles `ps`, and complement `x` of `p` introduced by "by", with `x'` coordinated to it. -/
structure ByAgent (v s s' p x x' : Nat) (l : Str) (ps : List Str) (a d : Argument) : Prop where
  word : Word t v
  said : ∃ w, SaidBy c tokens tg t v w
  subj : ∃ a₀, Stands ck c tokens tg t .SUBJ v s s' a₀ a ∧ ((∃ n, (.CPL, v) ∈ t.children n) → a₀.word ∉ relatives)
  one : ∀ x, (.SUBJ, x) ∈ t.children v → x = s
  prop : (.PROP, p) ∈ t.children v
  word' : Word t p
  adj : ∃ b, Adjective c tokens tg t p b
  unmarked : Unmarked t p
  participle : ∃ sp, Spelled c tokens p sp ∧ c.lemmatizer.call sp .VERB = .ok (l, some .PAST)
  notEmpty : l ≠ []
  parts : PartWords c.lower tokens (t.children p) p ps
  agent : ∃ d₀, Stands ck c tokens tg t .CPL p x x' d₀ d
  by_ : ∃ m tok, (.MARK, m) ∈ t.children x ∧ (∀ y, (.MARK, y) ∈ t.children x → y = m) ∧
    (∀ y, (.FLAT, y) ∉ t.children m) ∧ tokens[m]? = some tok ∧ c.lower tok = c!"by"

/-- "People hurt themselves": verb `v`, said by `w`, has the only subject `s` and a reflexive pronoun as object. -/
structure SelfClause (v s : Nat) (w : Str) : Prop extends Main c tokens tg t v where
  said : SaidBy c tokens tg t v w
  subj : (.SUBJ, s) ∈ t.children v
  oneSubj : ∀ x, (.SUBJ, x) ∈ t.children v → x = s
  obj : ∃ o b, (.OBJ, o) ∈ t.children v ∧ Word t o ∧ Called ck c tokens tg t o b ∧ b.word ∈ reflexives

/-- "People who …": the relative clause with verb `v` and the relative pronoun `s` as subject is attached to the noun `n`. -/
structure WhoClause (n v s : Nat) : Prop where
  noun : Word t n
  called : ∃ e, Called ck c tokens tg t n e
  arc : (.CPL, v) ∈ t.children n
  unmarked : Unmarked t v
  subj : (.SUBJ, s) ∈ t.children v
  word : Word t s
  pron : tg[s]? = some .PRON
  relative : ∃ a, Called ck c tokens tg t s a ∧ a.word ∈ relatives

end

end Spec
