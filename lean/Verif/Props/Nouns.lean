import Verif.Lemmas.Nouns
import Verif.Props.Voice

/-! C125: nouns are interchangeable. -/

namespace Props
open Py Model Spec

variable {ck : Bool} {c : Logic} {tokens tokens' : List Str} {tg : List Tag} {t : Tree Dep Nat} {ts : List STuple}

/-- **C125.** When nouns of a sentence are replaced with other nouns and the parse stays the same, the sentence has the same
tuples, in the same order, with the replacing nouns in the places of the replaced ones. -/
theorem C125_nouns (H : Reported ck c tokens tg t ts) (R : NounsReplaced c tg t tokens tokens') (N : NounsAsNouns tg t) :
    ∃ ts', Reported ck c tokens' tg t ts' ∧
      List.Forall₂ (fun x x' => List.Forall₂ (ArgReplaced c tg tokens tokens') x.args x'.args) ts ts' := by
  obtain ⟨hc, hl, ⟨W, S, nets, vectorize, sentences, tags, trees, i, hr, ht, hg⟩, st, hp⟩ := H
  obtain ⟨arcs, I, h1, h2⟩ := hr.idxTree ht hg
  rw [← hl] at I
  obtain ⟨s, s', us, us', e, e', F⟩ := process_nouns hc I hl.symm h1 h2 (fun a b => arc_label hr ht a b) R N ck
  rw [hp] at e
  cases e
  exact ⟨us', ⟨hc, by rw [R.length, hl], ⟨W, S, nets, vectorize, sentences, tags, trees, i, hr, ht, hg⟩, s', e'⟩, F⟩

/-- **C125.** The sentences have as many tuples, of the same shapes and polarities. -/
theorem C125_shapes (H : Reported ck c tokens tg t ts) (R : NounsReplaced c tg t tokens tokens') (N : NounsAsNouns tg t) :
    ∃ ts', Reported ck c tokens' tg t ts' ∧
      ts'.map (fun x => x.args.map fun a => (a.code, a.isAff)) = ts.map fun x => x.args.map fun a => (a.code, a.isAff) := by
  obtain ⟨ts', h, F⟩ := C125_nouns H R N
  refine ⟨ts', h, ?_⟩
  have inner : ∀ {l l' : List Argument}, List.Forall₂ (ArgReplaced c tg tokens tokens') l l' →
      l'.map (fun a => (a.code, a.isAff)) = l.map fun a => (a.code, a.isAff) := by
    intro l l' h
    induction h with
    | nil => rfl
    | cons a _ ih => rw [List.map_cons, List.map_cons, ih, a.1, a.2.1]
  have outer : ∀ {l l' : List STuple},
      List.Forall₂ (fun x x' => List.Forall₂ (ArgReplaced c tg tokens tokens') x.args x'.args) l l' →
      l'.map (fun x => x.args.map fun a => (a.code, a.isAff)) = l.map fun x => x.args.map fun a => (a.code, a.isAff) := by
    intro l l' h
    induction h with
    | nil => rfl
    | cons a _ ih => rw [List.map_cons, List.map_cons, ih, inner a]
  exact outer F

/-- A word with a lemma that is neither an adjective nor a word that is read. -/
theorem naming_of {tag : Tag} {w s l : Str} {x : Option Suffix} (ht : tag ∈ namingTags)
    (h1 : standardize c.lemmatizer.lm (c.lower w) = .ok s) (h2 : c.lemmatizer.call s tag = .ok (l, x))
    (h3 : l ∉ c.lemmatizer.adjs) (h4 : l ∉ readWords) : Naming c tag w := by
  refine ⟨ht, ?_⟩
  rintro l' ⟨s', x', e1, e2⟩
  rw [h1] at e1
  cases e1
  rw [h2] at e2
  cases e2
  exact ⟨h3, h4⟩

theorem foxes_naming : Naming demoLogic .NOUN c!"foxes" :=
  naming_of (s := c!"foxes") (l := c!"fox") (x := some .PLURAL) (by decide) (by decide +kernel) (by decide +kernel) (by decide)
    (by decide)
theorem formats_naming : Naming demoLogic .NOUN c!"formats" :=
  naming_of (s := c!"formats") (l := c!"format") (x := some .PLURAL) (by decide) (by decide +kernel) (by decide +kernel)
    (by decide) (by decide)
theorem bakes_naming : Naming demoLogic .NOUN c!"bakes" :=
  naming_of (s := c!"bakes") (l := c!"bake") (x := some .PLURAL) (by decide) (by decide +kernel) (by decide +kernel)
    (by decide) (by decide)

/-- "Format foxes bake formats" and "format bakes bake foxes". -/
theorem formatFoxes_replaced :
    NounsReplaced demoLogic formatFoxes.tags formatFoxes.tree formatFoxes.tokens [c!"Format", c!"bakes", c!"bake", c!"foxes"] := by
  have place : ∀ i ∈ [1, 3], (∀ l p, (l, i) ∈ formatFoxes.tree.children p → l ∉ functionalDeps ∧ l ≠ .FLAT) ∧
      ∀ j, (.FLAT, j) ∉ formatFoxes.tree.children i := by
    intro i hi
    simp only [Demo.mem formatFoxes_parsed]
    constructor
    · intro l p h
      have : ∀ a ∈ formatFoxes.arcs, a.1 ∉ functionalDeps ∧ a.1 ≠ .FLAT := by decide
      exact this _ h
    · intro j h
      have : ∀ a ∈ formatFoxes.arcs, a.1 ≠ .FLAT := by decide
      exact this _ h rfl
  refine ⟨rfl, ?_, ?_⟩
  · intro i w w' h h' hne
    rcases i with _ | _ | _ | _ | i
    · cases h; cases h'; exact absurd rfl hne
    · cases h; cases h'; exact ⟨_, rfl, foxes_naming, bakes_naming⟩
    · cases h; cases h'; exact absurd rfl hne
    · cases h; cases h'; exact ⟨_, rfl, formats_naming, foxes_naming⟩
    · cases h
  · intro i w w' h h' hne
    rcases i with _ | _ | _ | _ | i
    · cases h; cases h'; exact absurd rfl hne
    · exact place _ (by simp)
    · cases h; cases h'; exact absurd rfl hne
    · exact place _ (by simp)
    · cases h

theorem formatFoxes_nouns : NounsAsNouns formatFoxes.tags formatFoxes.tree := by
  have : ∀ a ∈ formatFoxes.arcs, a.1 ∉ propDeps ∧ a.1 ∉ [Dep.AND, .OR] := by decide
  refine ⟨?_, ?_⟩
  · intro p l j hl h
    rw [Demo.mem formatFoxes_parsed] at h
    exact absurd hl (this _ h).1
  · intro p l j hl h
    rw [Demo.mem formatFoxes_parsed] at h
    exact absurd hl (this _ h).2

example : ∃ ts', Reported ck demoLogic [c!"Format", c!"bakes", c!"bake", c!"foxes"] formatFoxes.tags formatFoxes.tree ts' ∧
    List.Forall₂ (fun x x' => List.Forall₂ (ArgReplaced demoLogic formatFoxes.tags formatFoxes.tokens
      [c!"Format", c!"bakes", c!"bake", c!"foxes"]) x.args x'.args) (formatFoxes.tuples ck) ts' :=
  C125_nouns (Demo.reported formatFoxes_parsed) formatFoxes_replaced formatFoxes_nouns

example : arcTuples formatFoxes.tokens formatFoxes.tags formatFoxes.root formatFoxes.arcs =
    .ok [c!"NTN(format fox, bake, format)", c!"NCL(format, be, baked)"] := by decide +kernel
example : arcTuples [c!"Format", c!"bakes", c!"bake", c!"foxes"] formatFoxes.tags formatFoxes.root formatFoxes.arcs =
    .ok [c!"NTN(format bake, bake, fox)", c!"NCL(fox, be, baked)"] := by decide +kernel

/-- A noun coordinated to an adjective is reported as an adjective, which `NounsAsNouns` leaves out. -/
example : arcTuples [c!"Baked", c!"or", c!"foxes", c!"formats", c!"bake"] [.ADJ, .CONJ, .NOUN, .NOUN, .VERB] 4
      [(.CPL, 3, 0), (.OR, 0, 2), (.SUBJ, 4, 3)] =
    .ok [c!"NCL(format, be, baked)", c!"NCA(format, be, fox)", c!"NI(format, bake)"] := by decide +kernel

/-- A noun with a property of its own is reported as a copula, which `NounsAsNouns` leaves out too. -/
example : arcTuples [c!"Foxes", c!"formats", c!"baked"] [.NOUN, .NOUN, .ADJ] 1 [(.SUBJ, 1, 0), (.PROP, 1, 2)] =
    .ok [c!"NCL(fox, format, baked)"] := by decide +kernel

end Props
