import Verif.Spec.Nodes
import Verif.Model.LangModel
import Verif.Model.Normalization

/-! Specification vocabulary for the pipeline. -/

namespace Spec
open Py Model

/-- Every node has been standardized, and lemmatized for its tag. -/
def Normalized (z : Lemmatizer) (h : Heap) (nodes : List Ref) (h' : Heap) : Prop :=
  ∀ r, (r ∉ nodes → h'.node r = h.node r) ∧ (r ∈ nodes → ∃ s l x,
    standardize z.lm (h.node r).standard = .ok s ∧ z.call s (h.node r).tag = .ok (l, x) ∧
    h'.node r = { h.node r with standard := s, lem := l, suffix := x })

/-- Adjectives taken for nouns and conversely have been fixed where tags are fixed, and nothing else. -/
def TagsFixed (adjs nouns : List Str) (h : Heap) (t : Tree Dep Ref) (nodes : List Ref) (h' : Heap) : Prop :=
  ∃ tag : Ref → Tag, (∀ r, h'.node r = { h.node r with tag := tag r }) ∧
    ∀ r, (r ∈ nodes ∧ Fixable h t r ∧ (h.node r).tag ∈ nominal ∧ (h.node r).lem ∈ adjs → tag r = .ADJ) ∧
      (r ∈ nodes ∧ Fixable h t r ∧ (h.node r).tag = .ADJ ∧ (h.node r).lem ∈ nouns → tag r = .NOUN) ∧
      (r ∉ nodes ∨ ¬ Fixable h t r ∨ ((h.node r).tag ∉ nominal ∧ (h.node r).tag ≠ .ADJ) ∨
        ((h.node r).tag ∈ nominal ∧ (h.node r).lem ∉ adjs) ∨ ((h.node r).tag = .ADJ ∧ (h.node r).lem ∉ nouns) →
        tag r = (h.node r).tag)

/-- The heads of compound nouns have their chunk, and nothing else changed. -/
def Chunked (h : Heap) (t : Tree Dep Ref) (nodes : List Ref) (h' : Heap) : Prop :=
  ∀ r, (r ∈ nodes → (∃ c, Compound h t nodes c r) → (∀ p, ¬ Compound h t nodes r p) →
      ∃ ns, ChunkNouns h t nodes r ns ∧
        h'.node r = { h.node r with chunk := some (join c!" " (ns.map fun n => (h.node n).lem)) }) ∧
    (r ∉ nodes ∨ (∀ c, ¬ Compound h t nodes c r) ∨ (∃ p, Compound h t nodes r p) → h'.node r = h.node r)

/-- Every node has been canonicalized. -/
def Canonical (z : Lemmatizer) (h : Heap) (nodes : List Ref) (h' : Heap) : Prop :=
  ∀ r, (r ∉ nodes → h'.node r = h.node r) ∧ (r ∈ nodes → canonicalize z.call (h.node r) = .ok (h'.node r))

/-! ### Sentences that are too long -/

/-- A token where long sentences are cut. -/
def CutToken (t : Str) : Prop := ∃ c ∈ c!":\";()[]{}-", t = [c]

/-- `pieces` are the longest stretches of tokens without cut: in front of the first, between two of them and after the
last there are only cuts, at least one between two pieces. -/
inductive Pieces : List Str → List (List Str) → Prop
  | none (cuts : List Str) : (∀ t ∈ cuts, CutToken t) → Pieces cuts []
  | last (cuts piece cuts' : List Str) : (∀ t ∈ cuts, CutToken t) → piece ≠ [] → (∀ t ∈ piece, ¬ CutToken t) →
      (∀ t ∈ cuts', CutToken t) → Pieces (cuts ++ piece ++ cuts') [piece]
  | more (cuts piece : List Str) (cut : Str) (rest : List Str) (p : List Str) (ps : List (List Str)) :
      (∀ t ∈ cuts, CutToken t) → piece ≠ [] → (∀ t ∈ piece, ¬ CutToken t) → CutToken cut → Pieces rest (p :: ps) →
      Pieces (cuts ++ piece ++ cut :: rest) (piece :: p :: ps)

/-- What becomes of a sentence: it is kept if it has at most 50 tokens; else its pieces of at most 50 tokens are. -/
def Resplit (tokens : List Str) (out : List (List Str)) : Prop :=
  (tokens.length ≤ 50 → out = [tokens]) ∧
  (50 < tokens.length → ∃ ps, Pieces tokens ps ∧ out = ps.filter fun p => p.length ≤ 50)

end Spec
