import Verif.Spec.Nodes
import Verif.Model.Semantics

/-! Semantic tuples: what may be said of registered nodes, rule by rule, independently of the extraction. -/

namespace Spec
open Py Model

/-- Whether a statement with these participants is affirmative: negations cancel two by two. -/
def affirmed (participants : List Bool) : Bool := decide (Even (participants.count false))

/-- Code of a nominal: proper noun P, pronoun O, numeral U, symbol S, else N. -/
inductive NounCode : Tag → Str → Prop
  | propn : NounCode .PROPN c!"P"
  | pron : NounCode .PRON c!"O"
  | num : NounCode .NUM c!"U"
  | sym : NounCode .SYM c!"S"
  | noun {t} : t ≠ .PROPN → t ≠ .PRON → t ≠ .NUM → t ≠ .SYM → NounCode t c!"N"

/-- The active verb `w` of a past participle. -/
def ActiveVerb (n : Node) (w : Str) : Prop := n.activeVerb = some w ∧ w ≠ []

/-- Code of an adjective: L for a past participle, else A. -/
inductive AdjCode (n : Node) : Str → Prop
  | pp {w} : ActiveVerb n w → AdjCode n c!"L"
  | adj : (∀ w, ¬ ActiveVerb n w) → AdjCode n c!"A"

def PropCode (n : Node) (c : Str) : Prop := (n.tag = .ADJ ∧ AdjCode n c) ∨ (n.tag ≠ .ADJ ∧ NounCode n.tag c)

section
variable (pp : Str → Str) (h : Heap) (nodes : List Ref)

/-- The node is a verb that can take arguments other than a property: no copula, no "there is". -/
def Plain (n : Node) : Prop := n.props = [] ∧ n.iprops = [] ∧ n.exist = []

/-- A verb that can head a clause. -/
def Heads (v : Ref) : Prop := (h.node v).tag = .VERB ∧ (h.node v).isInfTo = false ∧ Plain (h.node v)

def Nominal (r : Ref) : Prop := (h.node r).tag ∈ nominal

/-- Affirmative argument for a nominal. -/
def IsNoun (r : Ref) (a : Argument) : Prop := a.word = (h.node r).canon ∧ NounCode (h.node r).tag a.code ∧ a.isAff = true

/-- Affirmative argument for a property. -/
def IsProp (r : Ref) (a : Argument) : Prop := a.word = (h.node r).canon ∧ PropCode (h.node r) a.code ∧ a.isAff = true

def IsAdj (r : Ref) (a : Argument) : Prop := a.word = (h.node r).canon ∧ AdjCode (h.node r) a.code ∧ a.isAff = true

/-- `o` is a clause that `v`, with nominal subject `s`, has as object. -/
def Clause (s v o : Ref) : Prop :=
  v ∈ nodes ∧ Heads h v ∧ s ∈ (h.node v).subjs ∧ Nominal h s ∧ o ∈ (h.node v).objs ∧ (h.node o).tag = .VERB

/-- `s'` is the subject of the clause `o`, that of the main verb when the clause has none. -/
def ClauseSubj (s o s' : Ref) : Prop :=
  ((h.node o).subjs = [] ∧ s' = s) ∨ ((h.node o).subjs ≠ [] ∧ s' ∈ (h.node o).subjs ∧ Nominal h s')

/-- The node is said in a larger clause, so not by itself. -/
def Embedded (o : Ref) : Prop := ∃ s v, Clause h nodes s v o

/-- A past participle with the particles of the verb. -/
def pastParticiple (v : Ref) : Str := join c!" " (pp (h.node v).lem :: (h.node v).particles)

/-- Polarity of the subjects of a passive form: negative when none is affirmative. -/
def subjPolarity (v : Ref) : List Bool :=
  if (h.node v).subjs = [] then [] else [decide (∃ s ∈ (h.node v).subjs, (h.node s).isAff = true)]

/-- A tuple that the nodes say. -/
inductive Said : List Argument → Prop
  /-- "people want children to sing" -/
  | clauseIntr {s v o s' a a'} : Clause h nodes s v o → ClauseSubj h s o s' → Plain (h.node o) →
      (h.node o).objs = [] → (h.node o).canon ∉ [c!"have", c!"get", c!"be", c!"do"] → IsNoun h s a → IsNoun h s' a' →
      Said [a, ⟨(h.node v).canon, c!"T", affirmed [(h.node s).isAff, (h.node v).isAff, (h.node s').isAff, (h.node o).isAff]⟩,
        a', ⟨(h.node o).canon, c!"I", true⟩]
  /-- "people want children to sing songs" -/
  | clauseTrans {s v o s' o' a a' b} : Clause h nodes s v o → ClauseSubj h s o s' → Plain (h.node o) →
      o' ∈ (h.node o).objs → Nominal h o' → IsNoun h s a → IsNoun h s' a' → IsNoun h o' b →
      Said [a, ⟨(h.node v).canon, c!"T", affirmed [(h.node s).isAff, (h.node v).isAff, (h.node s').isAff, (h.node o).isAff,
        (h.node o').isAff]⟩, a', ⟨(h.node o).canon, c!"T", true⟩, b]
  /-- "people want children to be happy" -/
  | clauseProp {s v o s' p a a' b} : Clause h nodes s v o → ClauseSubj h s o s' → p ∈ (h.node o).props →
      IsNoun h s a → IsNoun h s' a' → IsProp h p b →
      Said [a, ⟨(h.node v).canon, c!"T", affirmed [(h.node s).isAff, (h.node v).isAff, (h.node s').isAff, (h.node o).isAff,
        (h.node p).isAff]⟩, a', ⟨(h.node o).canon, c!"C", true⟩, b]
  /-- "people sing" -/
  | intr {s v a} : v ∈ nodes → ¬ Embedded h nodes v → Heads h v → (h.node v).objs = [] →
      (h.node v).canon ∉ [c!"have", c!"get", c!"be", c!"do"] → s ∈ (h.node v).subjs → Nominal h s → IsNoun h s a →
      Said [a, ⟨(h.node v).canon, c!"I", affirmed [(h.node s).isAff, (h.node v).isAff]⟩]
  /-- "people sing songs" -/
  | trans {s v o a b} : v ∈ nodes → ¬ Embedded h nodes v → Heads h v → s ∈ (h.node v).subjs → Nominal h s →
      o ∈ (h.node v).objs → Nominal h o → IsNoun h s a → IsNoun h o b →
      Said [a, ⟨(h.node v).canon, c!"T", affirmed [(h.node s).isAff, (h.node v).isAff, (h.node o).isAff]⟩, b]
  /-- "people sing him songs": the recipient -/
  | recip {s v o a b} : v ∈ nodes → ¬ Embedded h nodes v → Heads h v → s ∈ (h.node v).subjs → Nominal h s →
      o ∈ (h.node v).iobjs → Nominal h o → IsNoun h s a → IsNoun h o b →
      Said [a, ⟨(h.node v).canon, c!"R", affirmed [(h.node s).isAff, (h.node v).isAff, (h.node o).isAff]⟩, b]
  /-- "songs are sung", said of any object -/
  | passive {v o a} : v ∈ nodes → (h.node v).tag = .VERB → Plain (h.node v) →
      (h.node v).canon ∉ [c!"have", c!"get"] → o ∈ (h.node v).objs → Nominal h o → IsNoun h o a →
      Said [a, ⟨c!"be", c!"C", affirmed (subjPolarity h v ++ [(h.node v).isAff, (h.node o).isAff])⟩,
        ⟨pastParticiple pp h v, c!"L", true⟩]
  /-- "people call him John" -/
  | indirect {n s v p a b} : n ∈ nodes → Nominal h n → (s, v, p) ∈ (h.node n).subjsVerbsIprops →
      ((h.node p).tag ∈ nominal ∨ (h.node p).tag = .ADJ) → IsNoun h n a → IsProp h p b →
      Said [a, ⟨c!"be " ++ pastParticiple pp h v, c!"C",
        affirmed ((s.map fun s => (h.node s).isAff).toList ++ [(h.node v).isAff, (h.node n).isAff, (h.node p).isAff])⟩, b]
  /-- "people are happy" -/
  | copula {n c p a b} : n ∈ nodes → Nominal h n → (c, p) ∈ (h.node n).copulasProps →
      ((h.node p).tag ∈ nominal ∨ (h.node p).tag = .ADJ) → IsNoun h n a → IsProp h p b →
      Said [a, ⟨(h.node c).canon, c!"C", affirmed [(h.node n).isAff, (h.node c).isAff, (h.node p).isAff]⟩, b]
  /-- "songs are sung by people" -/
  | copulaActive {n c p w x a b} : n ∈ nodes → Nominal h n → (c, p) ∈ (h.node n).copulasProps →
      (h.node p).tag = .ADJ → ActiveVerb (h.node p) w → x ∈ (h.node p).agents → Nominal h x → IsNoun h x a →
      IsNoun h n b → Said [a, ⟨w, c!"T", affirmed [(h.node x).isAff, (h.node p).isAff, (h.node n).isAff]⟩, b]
  /-- "songs called ballads" -/
  | participle {n q p a b} : n ∈ nodes → Nominal h n → (q, p) ∈ (h.node n).ppsProps →
      ((h.node p).tag ∈ nominal ∨ (h.node p).tag = .ADJ) → IsNoun h n a → IsProp h p b →
      Said [a, ⟨c!"be " ++ (h.node q).canon, c!"C", affirmed [(h.node n).isAff, (h.node q).isAff, (h.node p).isAff]⟩, b]
  /-- "happy people" -/
  | adjective {n p a b} : n ∈ nodes → Nominal h n → p ∈ (h.node n).adjs → IsNoun h n a →
      IsAdj h p b → Said [a, ⟨c!"be", c!"C", affirmed [(h.node p).isAff, (h.node n).isAff]⟩, b]
  /-- "songs sung by people" -/
  | adjectiveActive {n p w x a b} : n ∈ nodes → Nominal h n → p ∈ (h.node n).adjs →
      ActiveVerb (h.node p) w → x ∈ (h.node p).agents → Nominal h x → IsNoun h x a → IsNoun h n b →
      Said [a, ⟨w, c!"T", affirmed [(h.node x).isAff, (h.node p).isAff, (h.node n).isAff]⟩, b]

end

/-- Codes of nominals. -/
def nounCodes : List Str := [c!"N", c!"O", c!"P", c!"S", c!"U"]
/-- Codes of properties. -/
def propCodes : List Str := nounCodes ++ [c!"A", c!"L"]

/-- The documented shapes of the codes of a tuple. -/
def Shape (l : List Str) : Prop :=
  ∃ x ∈ nounCodes, l = [x, c!"I"] ∨ ∃ y ∈ nounCodes, ∃ z ∈ propCodes,
    l = [x, c!"T", y] ∨ l = [x, c!"R", y] ∨ l = [x, c!"C", z] ∨ l = [x, c!"T", y, c!"I"] ∨
    l = [x, c!"T", y, c!"C", z] ∨ ∃ u ∈ nounCodes, l = [x, c!"T", y, c!"T", u]

end Spec
