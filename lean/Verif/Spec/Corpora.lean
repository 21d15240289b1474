import Verif.Model.LangModel

/-! When two corpora, and two language models, count as the same. -/

namespace Spec
open Py Model

/-- The same sentences, in any order and distributed over texts in any way. -/
def SameSentences (a b : List (List (List Str))) : Prop := a.flatten.Perm b.flatten

/-- Two models that give the same answers, up to the order of equally probable n-grams in lists. -/
structure SameAnswers (m m' : LM) : Prop where
  has : ∀ g k, m.hasNgram g k = m'.hasNgram g k
  contains : ∀ g, m.contains g = m'.contains g
  len : m.len = m'.len
  bestNgram : ∀ gs, m.bestNgram gs = m'.bestNgram gs
  bestToken : ∀ tokens before after, m.bestToken tokens before after = m'.bestToken tokens before after
  top : ∀ n, (m.topNgrams n none).Perm (m'.topNgrams n none)
  topProbas : ∀ n limit, (m.topNgrams n limit).map (fun e => e.2.2) = (m'.topNgrams n limit).map fun e => e.2.2
  next : ∀ tokens, (m.nextWord tokens none).Perm (m'.nextWord tokens none)
  nextProbas : ∀ tokens limit, (m.nextWord tokens limit).map Prod.snd = (m'.nextWord tokens limit).map Prod.snd

/-- Every sentence of `a`, `k` times, in any order and distributed over texts in any way. -/
def Copies (k : Nat) (a b : List (List (List Str))) : Prop := (List.replicate k a.flatten).flatten.Perm b.flatten

/-- Two models that give the same answers, except that the second has counted `k` times as much. -/
structure ScaledAnswers (k : Nat) (m m' : LM) : Prop where
  has : ∀ g (c : Int), m.hasNgram g c = m'.hasNgram g (k * c)
  contains : ∀ g, m.contains g = m'.contains g
  len : m.len = m'.len
  bestNgram : ∀ gs, m.bestNgram gs = m'.bestNgram gs
  bestToken : ∀ tokens before after, m.bestToken tokens before after = m'.bestToken tokens before after
  top : ∀ n, ((m.topNgrams n none).map fun e => (e.1, (k : Int) * e.2.1, e.2.2)).Perm (m'.topNgrams n none)
  topProbas : ∀ n limit, (m.topNgrams n limit).map (fun e => e.2.2) = (m'.topNgrams n limit).map fun e => e.2.2
  next : ∀ tokens, (m.nextWord tokens none).Perm (m'.nextWord tokens none)
  nextProbas : ∀ tokens limit, (m.nextWord tokens limit).map Prod.snd = (m'.nextWord tokens limit).map Prod.snd

end Spec
