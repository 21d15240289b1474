import Verif.Spec.Statements

/-! Clauses as objects, properties of objects and past participles, read off tokens and arcs. -/

namespace Spec
open Py Model

section
variable (ck : Bool) (c : Logic) (tokens : List Str) (tg : List Tag) (t : Tree Dep Nat)

/-- "People want foxes to bake (and sing)": the verb `o`, said by `u`, is or is coordinated to the verb `o₀`, the object of
`v`. -/
structure ObjClause (v o₀ o : Nat) (u : Str) : Prop where
  arc : (.OBJ, o₀) ∈ t.children v
  word₀ : Word t o₀
  verb₀ : ∃ u₀, SaidBy c tokens tg t o₀ u₀ ∧ u₀ ∉ reflexives
  member : Member t o₀ o
  word : Word t o
  said : SaidBy c tokens tg t o u

/-- The only token attached to `v` by the label. -/
def Only (d : Dep) (v x : Nat) : Prop := (d, x) ∈ t.children v ∧ ∀ y, (d, y) ∈ t.children v → y = x

/-- `x'`, called `a'`, sings when people want children to sing: a subject of the clause, of the clause it is coordinated to
when it has none, the subject of the main verb instead of a reflexive ("people want themselves to sing") or, when the clause
has no subject, the subject of the main verb, here `s'`, called `a`. -/
inductive ClauseSinger (v o₀ o s' : Nat) (a : Argument) : Nat → Argument → Prop
  | own {q x x' a₀ a'} : q = o ∨ (q = o₀ ∧ ∀ y, (.SUBJ, y) ∉ t.children o) → Stands ck c tokens tg t .SUBJ q x x' a₀ a' →
      a₀.word ∉ reflexives → ClauseSinger v o₀ o s' a x' a'
  | self {x s x' a₀ b₀ a'} : o = o₀ ∨ (∀ y, (.SUBJ, y) ∉ t.children o) → (.SUBJ, x) ∈ t.children o₀ → Word t x →
      Called ck c tokens tg t x a₀ → a₀.word ∈ reflexives → Only t .SUBJ v s → Stands ck c tokens tg t .SUBJ v s x' b₀ a' →
      ClauseSinger v o₀ o s' a x' a'
  | main : (∀ y, (.SUBJ, y) ∉ t.children o) → (∀ y, (.SUBJ, y) ∉ t.children o₀) → ClauseSinger v o₀ o s' a s' a

/-- Polarity of the subject of `v`, if any. -/
def SubjectPolarity (v : Nat) (l : List Bool) : Prop :=
  ((∀ y, (.SUBJ, y) ∉ t.children v) ∧ l = []) ∨ ∃ s, Only t .SUBJ v s ∧ Word t s ∧ l = [positive t s]

/-- The token is marked by "by" and nothing else. -/
def MarkedBy (x : Nat) : Prop :=
  ∃ m tok, Only t .MARK x m ∧ (∀ y, (.FLAT, y) ∉ t.children m) ∧ tokens[m]? = some tok ∧ c.lower tok = c!"by"

/-- Token `p`, an adjective called `b` in tuples, is spelled as a past form of the verb `l`. -/
def PastOf (p : Nat) (b : Argument) (l : Str) : Prop :=
  Adjective c tokens tg t p b ∧ ∃ sp, Spelled c tokens p sp ∧ c.lemmatizer.call sp .VERB = .ok (l, some .PAST)

/-- Every token of the parse is a word of its own or a function word of one. -/
def Clean : Prop := ∀ k, ((∃ d x, (d, x) ∈ t.children k) ∨ ∃ d p, (d, k) ∈ t.children p) →
  Word t k ∨ ∃ d p, d ∈ functional ∧ (d, k) ∈ t.children p ∧ Word t p

/-- Token `k` is a word spelled as a past form of a verb, said `w` with the particles of the token. -/
def PastForm (k : Nat) (w : Str) : Prop :=
  Word t k ∧ ∃ s l ps, Spelled c tokens k s ∧ c.lemmatizer.call s .VERB = .ok (l, some .PAST) ∧
    PartWords c.lower tokens (t.children k) k ps ∧ w = List.intercalate c!" " (l :: ps)

/-- Token `o` is a clause that a main verb with a subject has as object: what people only want, say or hope. -/
def OnlyMeant (o : Nat) : Prop :=
  ∃ v w s s' a₀ a o₀ u, Main c tokens tg t v ∧ SaidBy c tokens tg t v w ∧ Stands ck c tokens tg t .SUBJ v s s' a₀ a ∧
    ((∃ n, (.CPL, v) ∈ t.children n) → a₀.word ∉ relatives) ∧ ObjClause c tokens tg t v o₀ o u

end
end Spec
