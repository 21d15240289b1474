import Verif.Spec.Clauses

/-! What a parse must contain for a tuple to be reported, read off tokens and arcs. -/

namespace Spec
open Py Model

section
variable (t : Tree Dep Nat)

/-- Every token of the parse is a word of its own, or a function word of one that carries nothing itself. -/
def NeatParse : Prop := ∀ k, ((∃ d x, (d, x) ∈ t.children k) ∨ ∃ d p, (d, k) ∈ t.children p) →
  Word t k ∨ t.children k = [] ∧ ∃ d p, d ∈ functional ∧ (d, k) ∈ t.children p ∧ Word t p

/-- The token has no child by the label. -/
def Lacks (i : Nat) (d : Dep) : Prop := ∀ x, (d, x) ∉ t.children i

end

section
variable (ck : Bool) (c : Logic) (tokens : List Str) (tg : List Tag) (t : Tree Dep Nat)

/-- A word with this tag and lemma may be taken for a word with the tag: as it is; a nominal listed as an adjective for an
adjective; an adjective listed as a noun for a noun. -/
def TakenFor (tag : Tag) (l : Str) (tag' : Tag) : Prop :=
  tag' = tag ∨ (tag ∈ nominal ∧ l ∈ c.lemmatizer.adjs ∧ tag' = .ADJ) ∨ (tag = .ADJ ∧ l ∈ c.nouns ∧ tag' = .NOUN)

/-- Token `i` is taken for a word with the tag. -/
def TakenAs (i : Nat) (tag' : Tag) : Prop := ∃ l tag, LemmaOf c tokens tg i l ∧ tg[i]? = some tag ∧ TakenFor c tag l tag'

/-- `x` is a complement of `p` that stands before it. -/
def LeftCpl (p x : Nat) : Prop := (.CPL, x) ∈ t.children p ∧ x < p

/-- `w` is made of the lemmas of token `i` and of complements before it, of complements before these and so on, in the order
of the sentence. -/
def ChunkOf (i : Nat) (w : Str) : Prop :=
  ∃ is ls, is.Pairwise (· < ·) ∧ is.getLast? = some i ∧ (∀ j ∈ is, Relation.ReflTransGen (LeftCpl t) i j) ∧
    List.Forall₂ (LemmaOf c tokens tg) is ls ∧ w = List.intercalate c!" " ls

/-- Token `i`, taken for a word with the tag, is written `w` in tuples: verbs and adjectives as lemma and particles, object
pronouns as subject pronouns, with chunking (`ck`) common nouns as compounds, all other words as lemmas. -/
def WrittenAs (i : Nat) (tag' : Tag) (w : Str) : Prop :=
  ∃ l tag ps, LemmaOf c tokens tg i l ∧ tg[i]? = some tag ∧ TakenFor c tag l tag' ∧
    PartWords c.lower tokens (t.children i) i ps ∧
    ((tag' = .VERB ∨ tag' = .ADJ) ∧ w = List.intercalate c!" " (l :: ps) ∨
      tag' = .PRON ∧ w = (Props.subjectOf l).getD l ∨
      tag' ≠ .VERB ∧ tag' ≠ .ADJ ∧ tag' ≠ .PRON ∧ w = l ∨
      ck = true ∧ tag' = .NOUN ∧ ChunkOf c tokens tg t i w)

/-- Token `i` is a nominal named by the argument. -/
def Named (i : Nat) (a : Argument) : Prop :=
  ∃ tag, WrittenAs ck c tokens tg t i tag a.word ∧ tag ∈ nominal ∧ NounCode tag a.code ∧ a.isAff = true

/-- Code L for adjectives spelled as past forms of verbs, else A. -/
def ParticipleCode (i : Nat) (tag : Tag) (code : Str) : Prop :=
  (code = c!"L" ∧ tag = .ADJ ∧ ∃ w, w ≠ [] ∧ PastForm c tokens t i w) ∨
  (code = c!"A" ∧ ¬ (tag = .ADJ ∧ ∃ w, w ≠ [] ∧ PastForm c tokens t i w))

/-- Token `i` is given by the argument as an adjective. -/
def GivenAdj (i : Nat) (b : Argument) : Prop :=
  ∃ tag, WrittenAs ck c tokens tg t i tag b.word ∧ ParticipleCode c tokens t i tag b.code ∧ b.isAff = true

/-- Token `i` is given by the argument as a property: an adjective or a noun. -/
def GivenProp (i : Nat) (b : Argument) : Prop :=
  ∃ tag, WrittenAs ck c tokens tg t i tag b.word ∧
    (tag = .ADJ ∧ ParticipleCode c tokens t i tag b.code ∨ tag ≠ .ADJ ∧ NounCode tag b.code) ∧ b.isAff = true

/-- Token `i` is "that", "which" or "who". -/
def RelativePron (i : Nat) : Prop := ∃ w, WrittenAs ck c tokens tg t i .PRON w ∧ w ∈ relatives

/-- Token `i` is a reflexive pronoun. -/
def ReflexivePron (i : Nat) : Prop := ∃ tag w, WrittenAs ck c tokens tg t i tag w ∧ w ∈ reflexives

/-- The verb `v` of a relative clause, attached to the nominal `n` without marker, has the relative pronoun `i` as a child by the label. -/
def Relative (d : Dep) (v i n : Nat) : Prop :=
  (d, i) ∈ t.children v ∧ RelativePron ck c tokens tg t i ∧ (.CPL, v) ∈ t.children n ∧ Unmarked t v ∧
    ∃ tag ∈ nominal, TakenAs c tokens tg n tag

/-- `s` acts by the verb `v`: its subject, the noun that a relative pronoun stands for, the subject of the verb above that a
reflexive stands for ("people want themselves to sing"), or the subject of the verb above a marked complement ("people earn
money by singing"). -/
inductive Subject (v s : Nat) : Prop
  | own : (.SUBJ, s) ∈ t.children v → Subject v s
  | relative {i} : Relative ck c tokens tg t .SUBJ v i s → Subject v s
  | self {i p} : (.SUBJ, i) ∈ t.children v → ReflexivePron ck c tokens tg t i → (.OBJ, v) ∈ t.children p →
      tg[p]? = some .VERB → (.SUBJ, s) ∈ t.children p → Subject v s
  | marked {p m} : (.CPL, v) ∈ t.children p → (.MARK, m) ∈ t.children v → Lacks t v .SUBJ → tg[v]? = some .VERB →
      tg[p]? = some .VERB → (.SUBJ, s) ∈ t.children p → Subject v s

/-- `v'` is `v`, or a verb coordinated to it that has no subject of its own; `s'` is or is coordinated to a subject of `v`. -/
def Acts (v' s' : Nat) : Prop :=
  ∃ v s, Subject ck c tokens tg t v s ∧ Member t s s' ∧ (v' = v ∨ Member t v v' ∧ Lacks t v' .SUBJ)

/-- `o` undergoes the verb `v`: its object, the noun that a relative pronoun stands for, the subject when the object is
reflexive, or the noun that a relative clause without pronoun hangs on ("the songs people sing"). -/
inductive Object (v o : Nat) : Prop
  | own : (.OBJ, o) ∈ t.children v → Object v o
  | relative {i} : Relative ck c tokens tg t .OBJ v i o → Object v o
  | self {i} : (.OBJ, i) ∈ t.children v → ReflexivePron ck c tokens tg t i → (.SUBJ, o) ∈ t.children v → Object v o
  | bare {s tag} : (.CPL, v) ∈ t.children o → Unmarked t v → Lacks t v .OBJ → (.SUBJ, s) ∈ t.children v →
      TakenAs c tokens tg o tag → tag ∈ nominal → Object v o

/-- `v'` is `v`, or a verb coordinated to it to which at most particles are attached; `o'` is or is coordinated to an object of
`v`. -/
def Undergoes (v' o' : Nat) : Prop :=
  ∃ v o, Object ck c tokens tg t v o ∧ Member t o o' ∧ (v' = v ∨ Member t v v' ∧ ∀ d x, (d, x) ∈ t.children v' → d = .PART)

/-- `x'` is, or is coordinated to, a child of `v` by the label. -/
def Hangs (d : Dep) (v x' : Nat) : Prop := ∃ x, (d, x) ∈ t.children v ∧ Member t x x'

/-- `v`, said by `w`, is a verb that links no property and is no "there is". -/
structure Predicate (v : Nat) (w : Str) : Prop where
  word : Word t v
  said : SaidBy c tokens tg t v w
  plain : Lacks t v .PROP ∧ Lacks t v .IPROP ∧ Lacks t v .EXIST

/-- `v`, said by `w`, heads a clause: a predicate without "to". -/
structure ClauseHead (v : Nat) (w : Str) : Prop extends Predicate c tokens tg t v w where
  noTo : ¬ InfTo c.lower tokens (t.children v) v

/-- The clause with verb `o`, said by `u`, is an object of `v`, said by `w`, on which `s` acts. -/
structure HasClause (s v o : Nat) (w u : Str) : Prop where
  head : ClauseHead c tokens tg t v w
  acts : Acts ck c tokens tg t v s
  undergoes : Undergoes ck c tokens tg t v o
  word : Word t o
  said : SaidBy c tokens tg t o u

/-- `s'` acts in the clause `o`: its own subject, or `s` if it has none. -/
def ActsIn (s o s' : Nat) : Prop := Acts ck c tokens tg t o s' ∨ s' = s ∧ Lacks t o .SUBJ

/-- The past participle of the verb `v`, with its particles. -/
def ParticipleOf (v : Nat) (w : Str) : Prop :=
  ∃ l p ps, LemmaOf c tokens tg v l ∧ Model.pastParticiple c.lemmatizer.lm [[]] c.reversedPps l = .ok p ∧
    PartWords c.lower tokens (t.children v) v ps ∧ w = List.intercalate c!" " (p :: ps)

/-- The property `p` is said of `n` by the copula `v`. -/
def Linking (n v p : Nat) : Prop :=
  Hangs t .PROP v p ∧ Unmarked t p ∧
    ∃ s, Member t s n ∧ ((.SUBJ, s) ∈ t.children v ∨ ∃ i, Relative ck c tokens tg t .SUBJ v i s)

/-- `p` is, or is coordinated to, an adjective: a complement of `n` without marker like "of", or the adjective that a
comparison with `n` hangs on. -/
def Describes (n p : Nat) : Prop :=
  ∃ q, Member t q p ∧ TakenAs c tokens tg q .ADJ ∧ ((.CPL, q) ∈ t.children n ∧ Lacks t q .MARK ∨ (.CPL, n) ∈ t.children q ∧ ∃ m, (.CMARK, m) ∈ t.children n)

/-- `x` is, or is coordinated to, a complement of `p` marked by "by". -/
def Agent (p x : Nat) : Prop :=
  ∃ y m tok, (.CPL, y) ∈ t.children p ∧ Member t y x ∧ (.MARK, m) ∈ t.children y ∧ tokens[m]? = some tok ∧ c.lower tok = c!"by"

/-- `w` is said by the adjective `p`, a past form of the verb. -/
def ActiveOf (p : Nat) (w : Str) : Prop := w ≠ [] ∧ PastForm c tokens t p w

/-- Tuples that the parse states. -/
inductive Stated : List Argument → Prop
  /-- "people want children to sing" -/
  | clauseIntr {s v o s' w u a a'} : HasClause ck c tokens tg t s v o w u → ActsIn ck c tokens tg t s o s' →
      Predicate c tokens tg t o u → Lacks t o .OBJ → u ∉ [c!"have", c!"get", c!"be", c!"do"] →
      Named ck c tokens tg t s a → Named ck c tokens tg t s' a' →
      Stated [a, ⟨w, c!"T", affirmed [positive t s, positive t v, positive t s', positive t o]⟩, a', ⟨u, c!"I", true⟩]
  /-- "people want children to sing songs" -/
  | clauseTrans {s v o s' o' w u a a' b} : HasClause ck c tokens tg t s v o w u → ActsIn ck c tokens tg t s o s' →
      Predicate c tokens tg t o u → Undergoes ck c tokens tg t o o' →
      Named ck c tokens tg t s a → Named ck c tokens tg t s' a' → Named ck c tokens tg t o' b →
      Stated [a, ⟨w, c!"T", affirmed [positive t s, positive t v, positive t s', positive t o, positive t o']⟩, a',
        ⟨u, c!"T", true⟩, b]
  /-- "people want children to be happy" -/
  | clauseProp {s v o s' p w u a a' b} : HasClause ck c tokens tg t s v o w u → ActsIn ck c tokens tg t s o s' →
      Hangs t .PROP o p → Named ck c tokens tg t s a → Named ck c tokens tg t s' a' → GivenProp ck c tokens tg t p b →
      Stated [a, ⟨w, c!"T", affirmed [positive t s, positive t v, positive t s', positive t o, positive t p]⟩, a',
        ⟨u, c!"C", true⟩, b]
  /-- "people sing" -/
  | intr {s v w a} : ClauseHead c tokens tg t v w → ¬ OnlyMeant ck c tokens tg t v → Acts ck c tokens tg t v s →
      Lacks t v .OBJ → w ∉ [c!"have", c!"get", c!"be", c!"do"] → Named ck c tokens tg t s a →
      Stated [a, ⟨w, c!"I", affirmed [positive t s, positive t v]⟩]
  /-- "people sing songs" -/
  | trans {s v o w a b} : ClauseHead c tokens tg t v w → ¬ OnlyMeant ck c tokens tg t v → Acts ck c tokens tg t v s →
      Undergoes ck c tokens tg t v o → Named ck c tokens tg t s a → Named ck c tokens tg t o b →
      Stated [a, ⟨w, c!"T", affirmed [positive t s, positive t v, positive t o]⟩, b]
  /-- "people sing him songs": the recipient -/
  | recip {s v o w a b} : ClauseHead c tokens tg t v w → ¬ OnlyMeant ck c tokens tg t v → Acts ck c tokens tg t v s →
      Hangs t .IOBJ v o → Named ck c tokens tg t s a → Named ck c tokens tg t o b →
      Stated [a, ⟨w, c!"R", affirmed [positive t s, positive t v, positive t o]⟩, b]
  /-- "songs are sung", said of any object -/
  | passive {v o w q a l} : Predicate c tokens tg t v w → w ∉ [c!"have", c!"get"] → Undergoes ck c tokens tg t v o →
      ParticipleOf c tokens tg t v q → Named ck c tokens tg t o a →
      l = [] ∧ Lacks t v .SUBJ ∨ (∃ s, Acts ck c tokens tg t v s ∧ l = [positive t s]) →
      Stated [a, ⟨c!"be", c!"C", affirmed (l ++ [positive t v, positive t o])⟩, ⟨q, c!"L", true⟩]
  /-- "people call him John" -/
  | indirect {n v p q a b l} : Hangs t .OBJ v n → Hangs t .IPROP v p → ParticipleOf c tokens tg t v q →
      l = [] ∧ Lacks t v .SUBJ ∨ (∃ s, (.SUBJ, s) ∈ t.children v ∧ l = [positive t s]) →
      Named ck c tokens tg t n a → GivenProp ck c tokens tg t p b →
      Stated [a, ⟨c!"be " ++ q, c!"C", affirmed (l ++ [positive t v, positive t n, positive t p])⟩, b]
  /-- "people are happy" -/
  | copula {n v p tag w a b} : Linking ck c tokens tg t n v p → WrittenAs ck c tokens tg t v tag w →
      Named ck c tokens tg t n a → GivenProp ck c tokens tg t p b →
      Stated [a, ⟨w, c!"C", affirmed [positive t n, positive t v, positive t p]⟩, b]
  /-- "songs are sung by people" -/
  | copulaActive {n v p w x a b} : Linking ck c tokens tg t n v p → ActiveOf c tokens t p w → Agent c tokens t p x →
      Named ck c tokens tg t x a → Named ck c tokens tg t n b →
      Stated [a, ⟨w, c!"T", affirmed [positive t x, positive t p, positive t n]⟩, b]
  /-- "songs called ballads" -/
  | participle {n q p w u a b} : (.CPL, q) ∈ t.children n → Lacks t q .MARK → WrittenAs ck c tokens tg t q .ADJ w →
      PastForm c tokens t q u → Hangs t .PROP q p → Named ck c tokens tg t n a → GivenProp ck c tokens tg t p b →
      Stated [a, ⟨c!"be " ++ w, c!"C", affirmed [positive t n, positive t q, positive t p]⟩, b]
  /-- "happy people" -/
  | adjective {n p a b} : Describes c tokens tg t n p → Named ck c tokens tg t n a → GivenAdj ck c tokens tg t p b →
      Stated [a, ⟨c!"be", c!"C", affirmed [positive t p, positive t n]⟩, b]
  /-- "songs sung by people" -/
  | adjectiveActive {n p w x a b} : Describes c tokens tg t n p → ActiveOf c tokens t p w → Agent c tokens t p x →
      Named ck c tokens tg t x a → Named ck c tokens tg t n b →
      Stated [a, ⟨w, c!"T", affirmed [positive t x, positive t p, positive t n]⟩, b]

end
end Spec
