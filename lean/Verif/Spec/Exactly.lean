import Verif.Spec.Grounds

/-! Exactly what a parse states: the rules by which tokens and arcs make tuples. -/

namespace Spec.Exactly
open Py Model Spec

section
variable (t : Tree Dep Nat)

/-- At most particles are attached to the token. -/
def Bare (i : Nat) : Prop := ∀ d x, (d, x) ∈ t.children i → d = .PART

/-- Something is attached to the token by the label. -/
def Has (i : Nat) (d : Dep) : Prop := ∃ x, (d, x) ∈ t.children i

/-- `x` is the first token attached to `v` by the label. -/
def First (v : Nat) (d : Dep) (x : Nat) : Prop := (((t.children v).filter fun a => a.1 = d).map Prod.snd).head? = some x

end

section
variable (ck : Bool) (c : Logic) (tokens : List Str) (tg : List Tag) (t : Tree Dep Nat)

/-- The tag of the token may be corrected: a bare complement of a nominal, or a bare property. -/
def Correctable (i : Nat) : Prop :=
  Bare t i ∧ ∃ p, ((.CPL, i) ∈ t.children p ∧ ∃ tag ∈ nominal, tg[p]? = some tag) ∨ (.PROP, i) ∈ t.children p ∨
    (.IPROP, i) ∈ t.children p

/-- Token `i` is taken for a word with the tag. -/
inductive Taken (i : Nat) : Tag → Prop
  | adjective {l tag} : LemmaOf c tokens tg i l → tg[i]? = some tag → Correctable tg t i → tag ∈ nominal →
      l ∈ c.lemmatizer.adjs → Taken i .ADJ
  | noun {l} : LemmaOf c tokens tg i l → tg[i]? = some .ADJ → Correctable tg t i → l ∈ c.nouns → Taken i .NOUN
  | same {l tag} : LemmaOf c tokens tg i l → tg[i]? = some tag →
      (Correctable tg t i → (tag ∈ nominal → l ∉ c.lemmatizer.adjs) ∧ (tag = .ADJ → l ∉ c.nouns)) → Taken i tag

/-- Token `i` is taken for a nominal. -/
def AsNominal (i : Nat) : Prop := ∃ tag ∈ nominal, Taken c tokens tg t i tag

/-- `x` is a part of the compound noun `p`: an unmarked nominal, complement of the nominal `p` and before it. -/
def PartOf (x p : Nat) : Prop :=
  (.CPL, x) ∈ t.children p ∧ x < p ∧ Unmarked t x ∧ AsNominal c tokens tg t x ∧ AsNominal c tokens tg t p

/-- Token `i`, a noun with parts but no part itself, heads the compound `w`: the lemmas of its parts, of their parts and so on
and of `i`, in the order of the sentence. -/
def Compounds (i : Nat) (w : Str) : Prop :=
  (∃ x, PartOf c tokens tg t x i) ∧ (∀ p, ¬ PartOf c tokens tg t i p) ∧
    ∃ is ls, is.Pairwise (· < ·) ∧ (∀ j, j ∈ is ↔ Relation.ReflTransGen (PartOf c tokens tg t) j i) ∧
      List.Forall₂ (LemmaOf c tokens tg) is ls ∧ w = List.intercalate c!" " ls

/-- Token `i`, taken for a word with the tag, is written `w` in tuples. -/
inductive Written (i : Nat) : Tag → Str → Prop
  | particles {tag l ps} : Taken c tokens tg t i tag → tag = .VERB ∨ tag = .ADJ → LemmaOf c tokens tg i l →
      PartWords c.lower tokens (t.children i) i ps → Written i tag (List.intercalate c!" " (l :: ps))
  | pronoun {l} : Taken c tokens tg t i .PRON → LemmaOf c tokens tg i l → Written i .PRON ((Props.subjectOf l).getD l)
  | compound {w} : Taken c tokens tg t i .NOUN → ck = true → Compounds c tokens tg t i w → Written i .NOUN w
  | noun {l} : Taken c tokens tg t i .NOUN → (ck = true → ∀ w, ¬ Compounds c tokens tg t i w) → LemmaOf c tokens tg i l →
      Written i .NOUN l
  | other {tag l} : Taken c tokens tg t i tag → tag ∉ [.VERB, .ADJ, .PRON, .NOUN] → LemmaOf c tokens tg i l → Written i tag l

/-- The relative pronoun `i` in a clause with verb `v` stands for `n`, the nominal that the clause is attached to without
marker. -/
def RelativeTo (v i n : Nat) : Prop :=
  (∃ w ∈ relatives, Written ck c tokens tg t i .PRON w) ∧ (.CPL, v) ∈ t.children n ∧ AsNominal c tokens tg t n ∧ Unmarked t v

/-- Token `i` is a reflexive pronoun. -/
def Self (i : Nat) : Prop := ∃ tag, ∃ w ∈ reflexives, Written ck c tokens tg t i tag w

/-- `s` is meant by the subject `i` of `v`: the noun that a relative pronoun stands for; else for a reflexive pronoun in a clause
that is an object the first subject of the verb above; else `i`. -/
def SubjectMeant (v i s : Nat) : Prop :=
  Meant (RelativeTo ck c tokens tg t v i) (fun s => Self ck c tokens tg t i ∧
    ∃ p, (.OBJ, v) ∈ t.children p ∧ Taken c tokens tg t p .VERB ∧ First t p .SUBJ s) i s

/-- `o` is meant by the object `i` of `v`: the noun that a relative pronoun stands for; else for a reflexive pronoun the first
subject of `v`; else `i`. -/
def ObjectMeant (v i o : Nat) : Prop :=
  Meant (RelativeTo ck c tokens tg t v i) (fun o => Self ck c tokens tg t i ∧ First t v .SUBJ o) i o

/-- `s` acts by the verb `v`: it is meant by a subject of `v`, or is the first subject of the verb that `v`, a marked complement
without subject, is attached to ("people earn money by singing"). -/
def Subject (v s : Nat) : Prop :=
  (∃ i, (.SUBJ, i) ∈ t.children v ∧ SubjectMeant ck c tokens tg t v i s) ∨
  ∃ p, (.CPL, v) ∈ t.children p ∧ Has t v .MARK ∧ Taken c tokens tg t v .VERB ∧ Lacks t v .SUBJ ∧
    Taken c tokens tg t p .VERB ∧ First t p .SUBJ s

/-- `s'` is or is coordinated to a subject of `v'`, or of the verb that `v'`, without a subject of its own, is coordinated to. -/
def Acts (v' s' : Nat) : Prop :=
  ∃ v s, Subject ck c tokens tg t v s ∧ Member t s s' ∧ (v' = v ∨ Member t v v' ∧ Lacks t v' .SUBJ)

/-- `o` undergoes the verb `v`: it is meant by an object of `v`, or is the nominal that `v`, a relative clause without object
and relative pronoun, is attached to ("the songs people sing"). -/
def Object (v o : Nat) : Prop :=
  (∃ i, (.OBJ, i) ∈ t.children v ∧ ObjectMeant ck c tokens tg t v i o) ∨
  ∃ s tag w, (.CPL, v) ∈ t.children o ∧ Unmarked t v ∧ AsNominal c tokens tg t o ∧ Lacks t v .OBJ ∧ First t v .SUBJ s ∧
    Written ck c tokens tg t s tag w ∧ w ∉ relatives

/-- `o'` is or is coordinated to an object of `v'`, or of the verb that `v'`, a bare verb, is coordinated to. -/
def Undergoes (v' o' : Nat) : Prop :=
  ∃ v o, Object ck c tokens tg t v o ∧ Member t o o' ∧ (v' = v ∨ Member t v v' ∧ Bare t v')

/-- Token `i` is a nominal named by the argument. -/
def Named (i : Nat) (a : Argument) : Prop :=
  ∃ tag, Written ck c tokens tg t i tag a.word ∧ tag ∈ nominal ∧ NounCode tag a.code ∧ a.isAff = true

/-- Code L for adjectives that are past forms of a verb, else A. -/
def AdjectiveCode (i : Nat) (tag : Tag) (code : Str) : Prop :=
  (code = c!"L" ∧ tag = .ADJ ∧ ∃ w, w ≠ [] ∧ PastForm c tokens t i w) ∨
  (code = c!"A" ∧ ¬ (tag = .ADJ ∧ ∃ w, w ≠ [] ∧ PastForm c tokens t i w))

/-- Token `i` is given by the argument as an adjective. -/
def GivenAdj (i : Nat) (b : Argument) : Prop :=
  ∃ tag, Written ck c tokens tg t i tag b.word ∧ AdjectiveCode c tokens t i tag b.code ∧ b.isAff = true

/-- Token `i`, taken for a word with the tag, is given by the argument as a property. -/
def GivenProp (i : Nat) (tag : Tag) (b : Argument) : Prop :=
  Written ck c tokens tg t i tag b.word ∧
    (tag = .ADJ ∧ AdjectiveCode c tokens t i tag b.code ∨ tag ≠ .ADJ ∧ NounCode tag b.code) ∧ b.isAff = true

/-- Token `i`, a nominal or an adjective, is given by the argument. -/
def Given (i : Nat) (b : Argument) : Prop := ∃ tag, (tag ∈ nominal ∨ tag = .ADJ) ∧ GivenProp ck c tokens tg t i tag b

/-- `v`, said by `w`, is a verb that links no property and is no "there is". -/
def Predicate (v : Nat) (w : Str) : Prop :=
  Written ck c tokens tg t v .VERB w ∧ Lacks t v .PROP ∧ Lacks t v .IPROP ∧ Lacks t v .EXIST

/-- `v`, said by `w`, heads a clause: a predicate without "to". -/
def ClauseHead (v : Nat) (w : Str) : Prop := Predicate ck c tokens tg t v w ∧ ¬ InfTo c.lower tokens (t.children v) v

/-- The clause with verb `o`, said by `u`, is an object of `v`, said by `w`, on which the nominal `s` acts. -/
def HasClause (s v o : Nat) (w u : Str) : Prop :=
  ClauseHead ck c tokens tg t v w ∧ Acts ck c tokens tg t v s ∧ AsNominal c tokens tg t s ∧ Undergoes ck c tokens tg t v o ∧
    Written ck c tokens tg t o .VERB u

/-- The verb `v`, said by `w`, heads a clause that is no object. -/
def MainClause (v : Nat) (w : Str) : Prop :=
  ClauseHead ck c tokens tg t v w ∧ ∀ s v' w' u, ¬ HasClause ck c tokens tg t s v' v w' u

/-- `s'` acts in the clause `o`: a subject of its own, or `s` if it has none. -/
def ActsIn (s o s' : Nat) : Prop :=
  Acts ck c tokens tg t o s' ∨ s' = s ∧ ∀ x, ¬ Acts ck c tokens tg t o x

/-- The property `p` is said of `n` by the copula `v`. -/
def Linking (n v p : Nat) : Prop :=
  ∃ i s q, (.PROP, q) ∈ t.children v ∧ Member t q p ∧ Unmarked t p ∧ First t v .SUBJ i ∧
    Meant (RelativeTo ck c tokens tg t v i) (fun _ => False) i s ∧ Member t s n

/-- `p` is, or is coordinated to, an adjective: a complement of `n` without marker like "of", or the adjective that a
comparison with `n` hangs on. -/
def Describes (n p : Nat) : Prop :=
  ∃ q, Member t q p ∧ Taken c tokens tg t q .ADJ ∧
    ((.CPL, q) ∈ t.children n ∧ Lacks t q .MARK ∨ (.CPL, n) ∈ t.children q ∧ Has t n .CMARK)

/-- `x` is, or is coordinated to, a complement of `p` whose first marker is "by"; `p` is a complement or property itself. -/
def Agent (p x : Nat) : Prop :=
  ∃ y m tok q, (.CPL, y) ∈ t.children p ∧ Member t y x ∧ First t y .MARK m ∧ tokens[m]? = some tok ∧ c.lower tok = c!"by" ∧
    ((.PROP, p) ∈ t.children q ∨ (.CPL, p) ∈ t.children q)

/-- The adjective `p` is the past form of a verb, said by `w`. -/
def ActiveOf (p : Nat) (w : Str) : Prop := Taken c tokens tg t p .ADJ ∧ w ≠ [] ∧ PastForm c tokens t p w

/-- Whether someone who acts by `v` is affirmative, if anyone acts. -/
def ActorPolarity (v : Nat) (l : List Bool) : Prop :=
  l = [] ∧ (∀ s, ¬ Acts ck c tokens tg t v s) ∨
  ∃ b, l = [b] ∧ (∃ s, Acts ck c tokens tg t v s) ∧ (b = true ↔ ∃ s, Acts ck c tokens tg t v s ∧ positive t s = true)

/-- Whether the first subject of `v` is affirmative, if there is one. -/
def SubjectPolarity (v : Nat) (l : List Bool) : Prop :=
  l = [] ∧ Lacks t v .SUBJ ∨ ∃ s, First t v .SUBJ s ∧ l = [positive t s]

/-- The tuples that the parse states. -/
inductive Stated : List Argument → Prop
  /-- "people want children to sing" -/
  | clauseIntr {s v o s' w u a a'} : HasClause ck c tokens tg t s v o w u → ActsIn ck c tokens tg t s o s' →
      Predicate ck c tokens tg t o u → (∀ x, ¬ Undergoes ck c tokens tg t o x) → u ∉ [c!"have", c!"get", c!"be", c!"do"] →
      Named ck c tokens tg t s a → Named ck c tokens tg t s' a' →
      Stated [a, ⟨w, c!"T", affirmed [positive t s, positive t v, positive t s', positive t o]⟩, a', ⟨u, c!"I", true⟩]
  /-- "people want children to sing songs" -/
  | clauseTrans {s v o s' o' w u a a' b} : HasClause ck c tokens tg t s v o w u → ActsIn ck c tokens tg t s o s' →
      Predicate ck c tokens tg t o u → Undergoes ck c tokens tg t o o' →
      Named ck c tokens tg t s a → Named ck c tokens tg t s' a' → Named ck c tokens tg t o' b →
      Stated [a, ⟨w, c!"T", affirmed [positive t s, positive t v, positive t s', positive t o, positive t o']⟩, a',
        ⟨u, c!"T", true⟩, b]
  /-- "people want children to be happy" -/
  | clauseProp {s v o s' p tag w u a a' b} : HasClause ck c tokens tg t s v o w u → ActsIn ck c tokens tg t s o s' →
      Hangs t .PROP o p → Named ck c tokens tg t s a → Named ck c tokens tg t s' a' → GivenProp ck c tokens tg t p tag b →
      Stated [a, ⟨w, c!"T", affirmed [positive t s, positive t v, positive t s', positive t o, positive t p]⟩, a',
        ⟨u, c!"C", true⟩, b]
  /-- "people sing" -/
  | intr {s v w a} : MainClause ck c tokens tg t v w → Acts ck c tokens tg t v s → (∀ x, ¬ Undergoes ck c tokens tg t v x) →
      w ∉ [c!"have", c!"get", c!"be", c!"do"] → Named ck c tokens tg t s a →
      Stated [a, ⟨w, c!"I", affirmed [positive t s, positive t v]⟩]
  /-- "people sing songs" -/
  | trans {s v o w a b} : MainClause ck c tokens tg t v w → Acts ck c tokens tg t v s → Undergoes ck c tokens tg t v o →
      Named ck c tokens tg t s a → Named ck c tokens tg t o b →
      Stated [a, ⟨w, c!"T", affirmed [positive t s, positive t v, positive t o]⟩, b]
  /-- "people sing him songs": the recipient -/
  | recip {s v o w a b} : MainClause ck c tokens tg t v w → Acts ck c tokens tg t v s → Hangs t .IOBJ v o →
      Named ck c tokens tg t s a → Named ck c tokens tg t o b →
      Stated [a, ⟨w, c!"R", affirmed [positive t s, positive t v, positive t o]⟩, b]
  /-- "songs are sung", said of any object -/
  | passive {v o w q a l} : Predicate ck c tokens tg t v w → w ∉ [c!"have", c!"get"] → Undergoes ck c tokens tg t v o →
      ParticipleOf c tokens tg t v q → ActorPolarity ck c tokens tg t v l → Named ck c tokens tg t o a →
      Stated [a, ⟨c!"be", c!"C", affirmed (l ++ [positive t v, positive t o])⟩, ⟨q, c!"L", true⟩]
  /-- "people call him John" -/
  | indirect {n v p q o a b l} : First t v .OBJ o → Member t o n → Hangs t .IPROP v p → ParticipleOf c tokens tg t v q →
      SubjectPolarity t v l → Named ck c tokens tg t n a → Given ck c tokens tg t p b →
      Stated [a, ⟨c!"be " ++ q, c!"C", affirmed (l ++ [positive t v, positive t n, positive t p])⟩, b]
  /-- "people are happy" -/
  | copula {n v p tag w a b} : Linking ck c tokens tg t n v p → Written ck c tokens tg t v tag w →
      Named ck c tokens tg t n a → Given ck c tokens tg t p b →
      Stated [a, ⟨w, c!"C", affirmed [positive t n, positive t v, positive t p]⟩, b]
  /-- "songs are sung by people" -/
  | copulaActive {n v p w x a b} : Linking ck c tokens tg t n v p → ActiveOf c tokens tg t p w → Agent c tokens t p x →
      Named ck c tokens tg t x a → Named ck c tokens tg t n b →
      Stated [a, ⟨w, c!"T", affirmed [positive t x, positive t p, positive t n]⟩, b]
  /-- "songs called ballads" -/
  | participle {n q p₀ p w u a b} : (.CPL, q) ∈ t.children n → Lacks t q .MARK → Written ck c tokens tg t q .ADJ w →
      PastForm c tokens t q u → First t q .PROP p₀ → Member t p₀ p → Named ck c tokens tg t n a → Given ck c tokens tg t p b →
      Stated [a, ⟨c!"be " ++ w, c!"C", affirmed [positive t n, positive t q, positive t p]⟩, b]
  /-- "happy people" -/
  | adjective {n p a b} : Describes c tokens tg t n p → Named ck c tokens tg t n a → GivenAdj ck c tokens tg t p b →
      Stated [a, ⟨c!"be", c!"C", affirmed [positive t p, positive t n]⟩, b]
  /-- "songs sung by people" -/
  | adjectiveActive {n p w x a b} : Describes c tokens tg t n p → ActiveOf c tokens tg t p w → Agent c tokens t p x →
      Named ck c tokens tg t x a → Named ck c tokens tg t n b →
      Stated [a, ⟨w, c!"T", affirmed [positive t x, positive t p, positive t n]⟩, b]

end
end Spec.Exactly
