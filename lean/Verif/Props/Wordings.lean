import Verif.Lemmas.Wordings
import Verif.Props.Clauses
import Verif.Props.Voice

/-! C126: words that make no difference. -/

namespace Props
open Py Model Spec

variable {ck : Bool} {c : Logic} {tokens tokens' : List Str} {tg : List Tag} {t : Tree Dep Nat} {ts : List STuple}

/-- **C126.** Sentences of the same parse whose words differ in letter case only, or as words outside the parse or function
words, have the same tuples in the same order, but where "by" marks a complement. -/
theorem C126_wordings (H : Reported ck c tokens tg t ts) (R : Reworded c.lower t tokens tokens') :
    Reported ck c tokens' tg t ts := by
  obtain ⟨hc, hl, ⟨W, S, nets, vectorize, sentences, tags, trees, i, hr, ht, hg⟩, st, hp⟩ := H
  obtain ⟨arcs, I, h1, h2⟩ := hr.idxTree ht hg
  rw [← hl] at I
  obtain ⟨s, s', us, e, e'⟩ := process_reworded hc I hl.symm h1 h2 (fun a b => arc_label hr ht a b) R ck
  rw [hp] at e
  cases e
  exact ⟨hc, by rw [R.length, hl], ⟨W, S, nets, vectorize, sentences, tags, trees, i, hr, ht, hg⟩, s', e'⟩

/-- **C126.** Letter case makes no difference in a parse without flat expressions. -/
theorem C126_case (H : Reported ck c tokens tg t ts) (hf : ∀ p j, (.FLAT, j) ∉ t.children p)
    (hw : tokens'.map c.lower = tokens.map c.lower) : Reported ck c tokens' tg t ts := by
  refine C126_wordings H ⟨by simpa using congrArg List.length hw, ?_, fun i w w' _ _ _ => ⟨fun p => hf p i, fun j => hf i j⟩⟩
  intro i w w' h h' _
  have := congrArg (·[i]?) hw
  simp only [List.getElem?_map, h, h', Option.map_some, Option.some.injEq] at this
  exact Or.inl this

/-- "No foxes and formats bake foxes" and "Few FOXES plus Formats bake foxes". -/
theorem noFoxes_reworded : Reworded demoLogic.lower noFoxes.tree noFoxes.tokens
    [c!"Few", c!"FOXES", c!"plus", c!"Formats", c!"bake", c!"foxes"] := by
  have flat : ∀ p i, (.FLAT, i) ∉ noFoxes.tree.children p := by
    intro p i h
    rw [Demo.mem noFoxes_parsed] at h
    have : ∀ a ∈ noFoxes.arcs, a.1 ≠ .FLAT := by decide
    exact this _ h rfl
  refine ⟨rfl, ?_, fun i w w' _ _ _ => ⟨fun p => flat p i, fun j => flat i j⟩⟩
  intro i w w' h h' hne
  rcases i with _ | _ | _ | _ | _ | _ | i
  · refine Or.inr (Or.inr (Or.inl ⟨.NEG, by decide, ⟨1, (Demo.mem noFoxes_parsed _ _ _).mpr (by decide), ?_⟩, ?_⟩))
    · rintro ⟨p, h | h⟩
      · rw [Demo.mem noFoxes_parsed] at h
        have : ∀ a ∈ noFoxes.arcs, a.1 ≠ .PART := by decide
        exact this _ h rfl
      · exact flat _ _ h
    · intro d j h
      rw [Demo.mem noFoxes_parsed] at h
      have : ∀ a ∈ noFoxes.arcs, a.2.1 ≠ 0 := by decide
      exact absurd rfl (this _ h)
  · cases h; cases h'; exact Or.inl (by decide)
  · refine Or.inr (Or.inl fun l j => ?_)
    simp only [Demo.mem noFoxes_parsed]
    have : ∀ a ∈ noFoxes.arcs, a.2.1 ≠ 2 ∧ a.2.2 ≠ 2 := by decide
    exact ⟨fun h => (this _ h).1 rfl, fun h => (this _ h).2 rfl⟩
  · cases h; cases h'; exact Or.inl (by decide)
  · cases h; cases h'; exact absurd rfl hne
  · cases h; cases h'; exact absurd rfl hne
  · cases h

example : Reported ck demoLogic [c!"Few", c!"FOXES", c!"plus", c!"Formats", c!"bake", c!"foxes"] noFoxes.tags noFoxes.tree
    (noFoxes.tuples ck) := C126_wordings (Demo.reported noFoxes_parsed) noFoxes_reworded

example : arcTuples [c!"Few", c!"FOXES", c!"plus", c!"Formats", c!"bake", c!"foxes"] noFoxes.tags noFoxes.root noFoxes.arcs =
    arcTuples noFoxes.tokens noFoxes.tags noFoxes.root noFoxes.arcs ∧
  arcTuples noFoxes.tokens noFoxes.tags noFoxes.root noFoxes.arcs ≠ .ok [] := by decide +kernel

example : Reported ck demoLogic [c!"FORMAT", c!"Foxes", c!"Bake", c!"formats"] formatFoxes.tags formatFoxes.tree
    (formatFoxes.tuples ck) :=
  C126_case (Demo.reported formatFoxes_parsed) (fun p j h => by
    rw [Demo.mem formatFoxes_parsed] at h
    have : ∀ a ∈ formatFoxes.arcs, a.1 ≠ .FLAT := by decide
    exact this _ h rfl) (by decide)

/-- The marker "by" makes a difference, but two other markers make none. -/
example : arcTuples bakedFormats.tokens bakedFormats.tags bakedFormats.root bakedFormats.arcs ≠
    arcTuples [c!"Formats", c!"baked", c!"foxes", c!"with", c!"foxes"] bakedFormats.tags bakedFormats.root bakedFormats.arcs := by
  decide +kernel
example : arcTuples [c!"Formats", c!"baked", c!"foxes", c!"near", c!"foxes"] bakedFormats.tags bakedFormats.root bakedFormats.arcs =
    arcTuples [c!"Formats", c!"baked", c!"foxes", c!"with", c!"foxes"] bakedFormats.tags bakedFormats.root bakedFormats.arcs := by
  decide +kernel

end Props
