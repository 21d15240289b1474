import Verif.Spec.Semantics

/-! The list of all tuples of registered nodes, in order and with repetitions. -/

namespace Spec.Order
open Py Model Spec

/-- Code of a nominal. -/
def nounCode : Tag → Str
  | .PROPN => c!"P"
  | .PRON => c!"O"
  | .NUM => c!"U"
  | .SYM => c!"S"
  | _ => c!"N"

/-- The verb of a past participle. -/
def activeOf (n : Node) : List Str := n.activeVerb.toList.filter (· ≠ [])

/-- Code of an adjective. -/
def adjCode (n : Node) : Str := if activeOf n = [] then c!"A" else c!"L"

section
variable (pp : Str → Str) (h : Heap)

def noun (r : Ref) : Argument := ⟨(h.node r).canon, nounCode (h.node r).tag, true⟩
def adj (r : Ref) : Argument := ⟨(h.node r).canon, adjCode (h.node r), true⟩
def prop (r : Ref) : Argument := if (h.node r).tag = .ADJ then adj h r else noun h r

/-- The nominals of a list. -/
def nouns (l : List Ref) : List Ref := l.filter fun r => (h.node r).tag ∈ nominal

/-- The verbs of a list. -/
def verbs (l : List Ref) : List Ref := l.filter fun r => (h.node r).tag = .VERB

/-- Nominals and adjectives can be properties. -/
def canBeProp (r : Ref) : Bool := (h.node r).tag ∈ nominal ∨ (h.node r).tag = .ADJ

/-- No copula and no "there is". -/
def plain (r : Ref) : Bool := (h.node r).props = [] ∧ (h.node r).iprops = [] ∧ (h.node r).exist = []

/-- A verb that can head a clause. -/
def heads (r : Ref) : Bool := (h.node r).tag = .VERB ∧ (h.node r).isInfTo = false ∧ plain h r = true

/-- A statement by the word with code and participants. -/
def verb (w code : Str) (participants : List Ref) : Argument := ⟨w, code, affirmed (participants.map fun r => (h.node r).isAff)⟩

/-- "people want children to sing": without object, with objects, with properties. -/
def clause (v s o s' : Ref) : List STuple :=
  (if plain h o then
    (if (h.node o).objs = [] ∧ (h.node o).canon ∉ [c!"have", c!"get", c!"be", c!"do"] then
      [⟨[noun h s, verb h (h.node v).canon c!"T" [s, v, s', o], noun h s', ⟨(h.node o).canon, c!"I", true⟩]⟩] else []) ++
    (nouns h (h.node o).objs).map fun o' =>
      ⟨[noun h s, verb h (h.node v).canon c!"T" [s, v, s', o, o'], noun h s', ⟨(h.node o).canon, c!"T", true⟩, noun h o']⟩
  else []) ++
  (h.node o).props.map fun p =>
    ⟨[noun h s, verb h (h.node v).canon c!"T" [s, v, s', o, p], noun h s', ⟨(h.node o).canon, c!"C", true⟩, prop h p]⟩

/-- Clauses that are objects of `v`: subject by subject, clause by clause, and by the subjects of the clause. -/
def clauses (v : Ref) : List STuple :=
  (nouns h (h.node v).subjs).flatMap fun s => (verbs h (h.node v).objs).flatMap fun o =>
    (if (h.node o).subjs = [] then [s] else nouns h (h.node o).subjs).flatMap fun s' => clause h v s o s'

/-- `r` is a clause that is an object of one of the verbs. -/
def said (nodes : List Ref) (r : Ref) : Bool :=
  nodes.any fun v => heads h v ∧ nouns h (h.node v).subjs ≠ [] ∧ r ∈ verbs h (h.node v).objs

/-- What a verb says: without object, object by object, and then recipient by recipient, each by all subjects. -/
def ofVerb (v : Ref) : List STuple :=
  (if (h.node v).objs = [] ∧ (h.node v).canon ∉ [c!"have", c!"get", c!"be", c!"do"] then
    (nouns h (h.node v).subjs).map fun s => ⟨[noun h s, verb h (h.node v).canon c!"I" [s, v]]⟩ else []) ++
  ((nouns h (h.node v).objs).flatMap fun o => (nouns h (h.node v).subjs).map fun s =>
    ⟨[noun h s, verb h (h.node v).canon c!"T" [s, v, o], noun h o]⟩) ++
  (nouns h (h.node v).iobjs).flatMap fun o => (nouns h (h.node v).subjs).map fun s =>
    ⟨[noun h s, verb h (h.node v).canon c!"R" [s, v, o], noun h o]⟩

/-- Agents of a participle. -/
def actives (n p : Ref) : List STuple :=
  (activeOf (h.node p)).flatMap fun w => (nouns h (h.node p).agents).map fun x => ⟨[noun h x, verb h w c!"T" [x, p, n], noun h n]⟩

/-- What is said of a noun: what it is called, what it is (with the agents), what participles say, its adjectives (with the agents). -/
def ofNoun (n : Ref) : List STuple :=
  (((h.node n).subjsVerbsIprops.filter fun x => canBeProp h x.2.2).map fun x =>
    ⟨[noun h n, verb h (c!"be " ++ Spec.pastParticiple pp h x.2.1) c!"C" (x.1.toList ++ [x.2.1, n, x.2.2]), prop h x.2.2]⟩) ++
  (((h.node n).copulasProps.filter fun x => canBeProp h x.2).flatMap fun x =>
    ⟨[noun h n, verb h (h.node x.1).canon c!"C" [n, x.1, x.2], prop h x.2]⟩ ::
      if (h.node x.2).tag = .ADJ then actives h n x.2 else []) ++
  (((h.node n).ppsProps.filter fun x => canBeProp h x.2).map fun x =>
    ⟨[noun h n, verb h (c!"be " ++ (h.node x.1).canon) c!"C" [n, x.1, x.2], prop h x.2]⟩) ++
  (h.node n).adjs.flatMap fun p => ⟨[noun h n, verb h c!"be" c!"C" [p, n], adj h p]⟩ :: actives h n p

/-- The passive forms of a verb, object by object. -/
def passives (v : Ref) : List STuple :=
  if (h.node v).canon ∈ [c!"have", c!"get"] then [] else
    (nouns h (h.node v).objs).map fun o =>
      ⟨[noun h o, ⟨c!"be", c!"C", affirmed (subjPolarity h v ++ [(h.node v).isAff, (h.node o).isAff])⟩, ⟨Spec.pastParticiple pp h v, c!"L", true⟩]⟩

/-- First all clauses that are objects, verb by verb; then what the other verbs say and what is said of the nouns, word by word;
then the passive forms, verb by verb. -/
def tuples (nodes : List Ref) : List STuple :=
  ((nodes.filter (heads h)).flatMap (clauses h)) ++
  ((nodes.filter fun r => said h nodes r = false).flatMap fun r =>
    if heads h r then ofVerb h r else if (h.node r).tag ∈ nominal then ofNoun pp h r else []) ++
  (nodes.filter fun r => (h.node r).tag = .VERB ∧ plain h r = true).flatMap (passives pp h)

end
end Spec.Order
