import Verif.Model.Node
import Verif.Spec.Tree

/-! Specification vocabulary for syntactic nodes. -/

namespace Spec
open Py Model

/-- No argument has been registered on the node yet. -/
structure NoArgs (n : Node) : Prop where
  isAff : n.isAff = true
  andCconjs : n.andCconjs = []
  orCconjs : n.orCconjs = []
  subjs : n.subjs = []
  objs : n.objs = []
  exist : n.exist = []
  props : n.props = []
  iprops : n.iprops = []
  iobjs : n.iobjs = []
  adjs : n.adjs = []
  subjsVerbsIprops : n.subjsVerbsIprops = []
  copulasProps : n.copulasProps = []
  ppsProps : n.ppsProps = []
  agents : n.agents = []

/-- A new node: no argument, no chunk. -/
structure Blank (n : Node) : Prop extends NoArgs n where
  chunk : n.chunk = none

/-- `words` are the lower-cased particles of token `key` that stand after it, in sentence order; `childs` are its
children with their labels. -/
def PartWords (lower : Str → Str) (tokens : List Str) (childs : List (Dep × Nat)) (key : Nat) (words : List Str) : Prop :=
  ∃ (is : List Nat) (toks : List Str), is.Pairwise (· ≤ ·) ∧
    is.Perm ((childs.filter fun c => c.1 = .PART ∧ key < c.2).map Prod.snd) ∧
    List.Forall₂ (fun i tok => tokens[i]? = some tok) is toks ∧ words = toks.map lower

/-- Some particle of token `key` standing before it is the word "to". -/
def InfTo (lower : Str → Str) (tokens : List Str) (childs : List (Dep × Nat)) (key : Nat) : Prop :=
  ∃ (i : Nat) (tok : Str), i ≤ key ∧ (.PART, i) ∈ childs ∧ tokens[i]? = some tok ∧ lower tok = c!"to"

/-- `n` is the node of a single token `key`: its own text, its particles after it and "to" before it. -/
structure SimpleNode (lower : Str → Str) (tokens : List Str) (t : Tree Dep Nat) (key : Nat) (n : Node) : Prop where
  idx : n.idx = key
  text : tokens[key]? = some n.original
  particles : PartWords lower tokens (t.children key) key n.particles
  infTo : n.isInfTo = true ↔ InfTo lower tokens (t.children key) key

/-- `n` is the node of a flat expression: the tokens of the chain of `FLAT` arcs from a childless token (the index of
the node) up to `key`, joined from the top one down. -/
structure FlatNode (tokens : List Str) (t : Tree Dep Nat) (key : Nat) (n : Node) : Prop where
  leaf : t.children n.idx = []
  plain : n.particles = [] ∧ n.isInfTo = false
  text : ∃ up texts, UpChain t.parent .FLAT n.idx (up ++ [key]) ∧
    List.Forall₂ (fun (i : Nat) tok => tokens[i]? = some tok) (key :: up.reverse ++ [n.idx]) texts ∧
    n.original = join c!" " texts

/-- Labels of words without meaning of their own. -/
def functional : List Dep := [.ART, .AUX, .CMARK, .NEG, .INTJ, .MARK, .IMARK, .PART, .MODAL]

end Spec

namespace Spec
open Py Model

/-- Tags of nominals. -/
def nominal : List Tag := [.NOUN, .PROPN, .PRON, .SYM, .NUM]

/-- `c` is a compound noun of `p`: both nominals, attached by `CPL` without a marker, `c` before `p`. -/
structure Compound (h : Heap) (t : Tree Dep Ref) (nodes : List Ref) (c p : Ref) : Prop where
  mem : c ∈ nodes
  tagC : (h.node c).tag ∈ nominal
  tagP : (h.node p).tag ∈ nominal
  arc : t.parent c = some (.CPL, p)
  noMark : ∀ l x, (l, x) ∈ t.children c → l ≠ .MARK ∧ l ≠ .CMARK ∧ l ≠ .IMARK
  before : (h.node c).idx < (h.node p).idx

/-- `ns` are the noun `r` and all its direct and indirect compounds, once each, in sentence order. -/
structure ChunkNouns (h : Heap) (t : Tree Dep Ref) (nodes : List Ref) (r : Ref) (ns : List Ref) : Prop where
  mem : ∀ n, n ∈ ns ↔ n = r ∨ Relation.TransGen (Compound h t nodes) n r
  once : ns.Nodup
  order : ns.Pairwise fun a b => (h.node a).idx ≤ (h.node b).idx
  rootLast : ns.getLast? = some r

/-- A leaf attached where tags are fixed: a complement of a nominal or a property. -/
def Fixable (h : Heap) (t : Tree Dep Ref) (r : Ref) : Prop :=
  t.children r = [] ∧ ((∃ p, t.parent r = some (.CPL, p) ∧ (h.node p).tag ∈ nominal) ∨
    ∃ p, t.parent r = some (.PROP, p) ∨ t.parent r = some (.IPROP, p))

end Spec

/-! Arguments of nodes. `t` is the node tree, `nodes` the listed nodes, `h` the nodes before argument finding. -/

namespace Spec
open Py Model

variable (h : Heap) (t : Tree Dep Ref) (nodes : List Ref)

/-- `y` is coordinated to the listed node `x` by "and" or "or". -/
def Conjunct (x y : Ref) : Prop := x ∈ nodes ∧ ((.AND, y) ∈ t.children x ∨ (.OR, y) ∈ t.children x)

/-- `y` is `x` or coordinated to it. -/
def Group (x y : Ref) : Prop := y = x ∨ Conjunct t nodes x y

/-- `c` is the first child of `p` by the label. -/
def FirstChild (p : Ref) (l : Dep) (c : Ref) : Prop := (t.childrenVia p l).head? = some c

def HasChild (p : Ref) (l : Dep) : Prop := ∃ c, (l, c) ∈ t.children p

def HasMarker (p : Ref) : Prop := HasChild t p .MARK ∨ HasChild t p .CMARK ∨ HasChild t p .IMARK

/-- The pronoun "that", "which" or "who" of a relative clause with verb `verb` stands for the noun `p`. -/
def RelReferent (verb pron p : Ref) : Prop :=
  (h.node pron).tag = .PRON ∧ ((h.node pron).canon = c!"that" ∨ (h.node pron).canon = c!"which" ∨
    (h.node pron).canon = c!"who") ∧ t.parent verb = some (.CPL, p) ∧ (h.node p).tag ∈ nominal ∧ ¬ HasMarker t verb

def Reflexive (pron : Ref) : Prop :=
  (h.node pron).canon ∈ [c!"myself", c!"yourself", c!"yourselves", c!"himself", c!"herself", c!"itself", c!"ourself",
    c!"ourselves", c!"theirself", c!"themselves", c!"oneself"]

/-- A reflexive subject of `verb`, itself object of another verb, stands for the subject of the latter. -/
def ReflexiveSubj (verb pron s : Ref) : Prop :=
  Reflexive h pron ∧ ∃ p, t.parent verb = some (.OBJ, p) ∧ (h.node p).tag = .VERB ∧ FirstChild t p .SUBJ s

/-- A reflexive object stands for the subject. -/
def ReflexiveObj (verb pron s : Ref) : Prop := Reflexive h pron ∧ FirstChild t verb .SUBJ s

/-- The node meant by `node`: what `rel` finds, else what `refl` finds, else itself. -/
def Meant (rel refl : Ref → Prop) (node x : Ref) : Prop :=
  rel x ∨ ((∀ y, ¬ rel y) ∧ refl x) ∨ ((∀ y, ¬ rel y) ∧ (∀ y, ¬ refl y) ∧ x = node)

/-- `verb`, or a coordinated verb without subject of its own. -/
def SharesSubj (verb v : Ref) : Prop := v = verb ∨ (Conjunct t nodes verb v ∧ ¬ HasChild t v .SUBJ)

/-- `verb`, or a coordinated verb without children. -/
def SharesObj (verb v : Ref) : Prop := v = verb ∨ (Conjunct t nodes verb v ∧ t.children v = [])

/-- `s` is a subject of `v`: through a subject arc, or as subject of the verb above a marked complement. -/
def SubjOf (v s : Ref) : Prop :=
  (∃ verb node ref, node ∈ nodes ∧ t.parent node = some (.SUBJ, verb) ∧
    Meant (RelReferent h t verb node) (ReflexiveSubj h t verb node) node ref ∧
    Group t nodes ref s ∧ SharesSubj t nodes verb v) ∨
  ∃ verb p subj, verb ∈ nodes ∧ t.parent verb = some (.CPL, p) ∧ HasChild t verb .MARK ∧ (h.node verb).tag = .VERB ∧
    ¬ HasChild t verb .SUBJ ∧ (h.node p).tag = .VERB ∧ FirstChild t p .SUBJ subj ∧
    Group t nodes subj s ∧ SharesSubj t nodes verb v

/-- `o` is an object of `v`: through an object arc, or as the noun above a relative clause without pronoun. -/
def ObjOf (v o : Ref) : Prop :=
  (∃ verb node ref, node ∈ nodes ∧ t.parent node = some (.OBJ, verb) ∧
    Meant (RelReferent h t verb node) (ReflexiveObj h t verb node) node ref ∧
    Group t nodes ref o ∧ SharesObj t nodes verb v) ∨
  ∃ verb p subj, verb ∈ nodes ∧ t.parent verb = some (.CPL, p) ∧ ¬ HasMarker t verb ∧ (h.node p).tag ∈ nominal ∧
    ¬ HasChild t verb .OBJ ∧ FirstChild t verb .SUBJ subj ∧ (h.node subj).canon ∉ [c!"that", c!"which", c!"who"] ∧
    Group t nodes p o ∧ SharesObj t nodes verb v

/-- `x` is attached to `v` by the label, or coordinated to such a node. -/
def AttachedBy (l : Dep) (v x : Ref) : Prop := ∃ node ∈ nodes, t.parent node = some (l, v) ∧ Group t nodes node x

/-- `p` is said of `s` by the copula `c`. -/
def CopulaOf (s c p : Ref) : Prop :=
  ∃ node subj ref, node ∈ nodes ∧ t.parent node = some (.PROP, c) ∧ FirstChild t c .SUBJ subj ∧
    Meant (RelReferent h t c subj) (fun _ => False) subj ref ∧ Group t nodes ref s ∧ Group t nodes node p ∧ ¬ HasMarker t p

/-- `ip` is said of the object `o` by `verb`, with the subject of the verb if any. -/
def IpropOf (o : Ref) (subj : Option Ref) (verb ip : Ref) : Prop :=
  ∃ node obj, node ∈ nodes ∧ t.parent node = some (.IPROP, verb) ∧ FirstChild t verb .OBJ obj ∧
    subj = (t.childrenVia verb .SUBJ).head? ∧ Group t nodes obj o ∧ Group t nodes node ip

/-- `a` is an adjective of `v`: an unmarked complement, or the adjective a comparison with `v` hangs on. -/
def AdjOf (v a : Ref) : Prop :=
  (∃ node ∈ nodes, t.parent node = some (.CPL, v) ∧ ¬ HasChild t node .MARK ∧ (h.node node).tag = .ADJ ∧
    Group t nodes node a) ∨
  ∃ p, v ∈ nodes ∧ t.parent v = some (.CPL, p) ∧ HasChild t v .CMARK ∧ (h.node p).tag = .ADJ ∧
    (h.node v).tag ∈ nominal ∧ Group t nodes p a

/-- `p` is a property of `v` through the past participle `pp`. -/
def PpOf (v pp p : Ref) : Prop :=
  ∃ prop, pp ∈ nodes ∧ t.parent pp = some (.CPL, v) ∧ ¬ HasChild t pp .MARK ∧ (h.node pp).tag = .ADJ ∧
    (h.node v).tag ∈ nominal ∧ FirstChild t pp .PROP prop ∧ (h.node pp).suffix = some .PAST ∧ Group t nodes prop p

/-- `a` is an agent of `d`: a complement of `d` marked with "by", where `d` is a property or a complement. -/
def AgentOf (d a : Ref) : Prop :=
  ∃ node m, node ∈ nodes ∧ t.parent node = some (.CPL, d) ∧ FirstChild t node .MARK m ∧ (h.node m).canon = c!"by" ∧
    (∃ q, t.parent d = some (.PROP, q) ∨ t.parent d = some (.CPL, q)) ∧ Group t nodes node a

/-- The nodes `h'` after argument finding: only arguments, coordination and polarity differ from `h`, and they are
those of the tree. -/
structure ArgsFound (h' : Heap) : Prop where
  next : h'.next = h.next
  same : ∀ r, ∃ a b c subjs objs exist props iprops iobjs adjs svis cops pps agents, h'.node r = { h.node r with
    andCconjs := a, orCconjs := b, isAff := c, subjs := subjs, objs := objs, exist := exist, props := props,
    iprops := iprops, iobjs := iobjs, adjs := adjs, subjsVerbsIprops := svis, copulasProps := cops, ppsProps := pps,
    agents := agents }
  conj : ∀ r x, (x ∈ (h'.node r).andCconjs ↔ r ∈ nodes ∧ (.AND, x) ∈ t.children r) ∧
    (x ∈ (h'.node r).orCconjs ↔ r ∈ nodes ∧ (.OR, x) ∈ t.children r)
  aff : ∀ r, (h'.node r).isAff = false ↔ r ∈ nodes ∧ HasChild t r .NEG
  subjs : ∀ r x, x ∈ (h'.node r).subjs ↔ SubjOf h t nodes r x
  objs : ∀ r x, x ∈ (h'.node r).objs ↔ ObjOf h t nodes r x
  iobjs : ∀ r x, x ∈ (h'.node r).iobjs ↔ AttachedBy t nodes .IOBJ r x
  exist : ∀ r x, x ∈ (h'.node r).exist ↔ AttachedBy t nodes .EXIST r x
  props : ∀ r x, x ∈ (h'.node r).props ↔ AttachedBy t nodes .PROP r x
  iprops : ∀ r x, x ∈ (h'.node r).iprops ↔ AttachedBy t nodes .IPROP r x
  adjs : ∀ r x, x ∈ (h'.node r).adjs ↔ AdjOf h t nodes r x
  pps : ∀ r pp p, (pp, p) ∈ (h'.node r).ppsProps ↔ PpOf h t nodes r pp p
  copulas : ∀ r c p, (c, p) ∈ (h'.node r).copulasProps ↔ CopulaOf h t nodes r c p
  svis : ∀ r s v ip, (s, v, ip) ∈ (h'.node r).subjsVerbsIprops ↔ IpropOf t nodes r s v ip
  agents : ∀ r x, x ∈ (h'.node r).agents ↔ AgentOf h t nodes r x

/-- `x` takes part in an arc of the tree. -/
def InTree (t : Tree Dep Ref) (x : Ref) : Prop := ∃ d y, (d, y) ∈ t.children x ∨ (d, x) ∈ t.children y

end Spec
