import Verif.Spec.Simple

/-! Simple passive sentences with an agent. -/

namespace Spec
open Py Model

/-- Apart from function words and coordinated nouns, the parse consists of the copula `v`, its subject `s`, the participle `p` and
its agent `y` after "by". -/
structure PassiveFrame (c : Logic) (tokens : List Str) (t : Tree Dep Nat) (v s p y : Nat) : Prop where
  subj : (.SUBJ, s) ∈ t.children v
  prop : (.PROP, p) ∈ t.children v
  agent : (.CPL, y) ∈ t.children p
  only : ∀ d x, (d, x) ∈ t.children v → d ∉ functional → (d, x) = (.SUBJ, s) ∨ (d, x) = (.PROP, p)
  onlyAgent : ∀ d x, (d, x) ∈ t.children p → d ∉ functional → (d, x) = (.CPL, y)
  others : ∀ q d x, (d, x) ∈ t.children q → q ≠ v → q ≠ p → d ∉ functional → d = .AND ∨ d = .OR
  unmarked : Unmarked t p
  by_ : ∃ m tok, Exactly.First t y .MARK m ∧ tokens[m]? = some tok ∧ c.lower tok = c!"by"
  noComparison : Lacks t y .CMARK

/-- The words by which the token and those coordinated to it are called. -/
def CalledIn (c : Logic) (tokens : List Str) (tg : List Tag) (t : Tree Dep Nat) (i : Nat) (a : Argument) : Prop :=
  ∃ x, Member t i x ∧ Noun c tokens tg x a

/-- The participle `i` is written `q` as an adjective. -/
def AdjectiveBy (c : Logic) (tokens : List Str) (tg : List Tag) (t : Tree Dep Nat) (i : Nat) (q : Str) : Prop :=
  ∃ l ps, tg[i]? = some .ADJ ∧ LemmaOf c tokens tg i l ∧ PartWords c.lower tokens (t.children i) i ps ∧
    q = List.intercalate c!" " (l :: ps)

/-- "Foxes bake cakes" and "Cakes are baked by foxes": an active sentence with verb `v`, subject `s` and object `o`, and a passive
sentence with copula `v'`, subject `s'`, participle `p` and agent `y`, of the same nouns and of the same verb, said by `w` and with
participle `q`. Only the verb and the copula may be negated, and if so both. -/
structure Counterparts (c : Logic) (tokens : List Str) (tg : List Tag) (t : Tree Dep Nat) (v s o : Nat)
    (tokens' : List Str) (tg' : List Tag) (t' : Tree Dep Nat) (v' s' p y : Nat) (w q : Str) : Prop where
  active : Frame t v s (some (.OBJ, o))
  passive : PassiveFrame c tokens' t' v' s' p y
  verb : tg[v]? = some .VERB
  copula : tg'[v']? = some .VERB
  noTo : ¬ InfTo c.lower tokens (t.children v) v
  said : SaidBy c tokens tg t v w
  past : PastForm c tokens' t' p w
  not_empty : w ≠ []
  not_have : w ∉ [c!"have", c!"get"]
  participle : ParticipleOf c tokens tg t v q
  adjective : AdjectiveBy c tokens' tg' t' p q
  be : SaidBy c tokens' tg' t' v' c!"be"
  subjects : Nouns t tg s
  objects : Nouns t tg o
  subjects' : Nouns t' tg' s'
  agents' : Nouns t' tg' y
  not_reflexive : ∀ l, LemmaOf c tokens tg o l → l ∉ reflexives
  same_agents : ∀ a, CalledIn c tokens tg t s a ↔ CalledIn c tokens' tg' t' y a
  same_patients : ∀ a, CalledIn c tokens tg t o a ↔ CalledIn c tokens' tg' t' s' a
  only_verb : ∀ i x, (.NEG, x) ∈ t.children i → i = v
  only_copula : ∀ i x, (.NEG, x) ∈ t'.children i → i = v'
  negation : positive t v = positive t' v'

end Spec
