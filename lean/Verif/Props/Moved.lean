import Verif.Props.Flats

/-! C129: sentences with the same words in the same arcs have the same tuples. -/

namespace Props
open Py Model Spec

variable {ck : Bool} {c : Logic} {tokens tokens' : List Str} {tg tg' : List Tag} {t t' : Tree Dep Nat} {ts ts' : List STuple}
  {σ : Nat → Nat}

/-- **C129.** The tuples of a sentence depend on the words of its parse only: on their order, their text up to letter case, their
tags and the arcs between them. Where they stand, which tokens outside the parse stand between them, and which articles, auxiliaries,
modals and interjections go with them makes no difference. -/
theorem C129_same (H : Reports ck c tokens tg t ts) (H' : Reports ck c tokens' tg' t' ts') (V : Moved c.lower σ t tokens tg t' tokens' tg')
    (T : NeatParse t) (T' : NeatParse t') (x : STuple) : x ∈ ts ↔ x ∈ ts' := by
  obtain ⟨h, h', nt, nodes, pos, L, A, E⟩ := H.linked
  obtain ⟨k, k', mt, modes, qos, M, B, D⟩ := H'.linked
  rw [E, D]
  exact (V.alike T T' L.label M.label).said_iff L M T A B

/-! ### Examples -/

/-- "Foxes baked formats." -/
def plainFoxes : Demo where
  tokens := [c!"Foxes", c!"baked", c!"formats"]
  tags := [.NOUN, .VERB, .NOUN]
  deps := [.SUBJ, .ROOT, .OBJ]
  trans := [(0, 1, .LEFT), (1, 2, .RIGHT)]
  root := 1
  arcs := [(.SUBJ, 1, 0), (.OBJ, 1, 2)]

/-- "Well , the foxes ( foxes ) have BAKED formats": words in front and a parenthesis outside the parse, an article and an
auxiliary. -/
def apartFoxes : Demo where
  tokens := [c!"Well", c!",", c!"the", c!"foxes", c!"(", c!"foxes", c!")", c!"have", c!"BAKED", c!"formats"]
  tags := [.EXPR, .PUNCT, .DET, .NOUN, .PUNCT, .NOUN, .PUNCT, .VERB, .VERB, .NOUN]
  deps := [.NODEP, .NODEP, .ART, .SUBJ, .NODEP, .NODEP, .NODEP, .AUX, .ROOT, .OBJ]
  trans := [(2, 3, .LEFT), (7, 8, .LEFT), (3, 8, .LEFT), (8, 9, .RIGHT)]
  root := 8
  arcs := [(.ART, 3, 2), (.AUX, 8, 7), (.SUBJ, 8, 3), (.OBJ, 8, 9)]

theorem plainFoxes_parsed : plainFoxes.Parsed := by decide +kernel
theorem apartFoxes_parsed : apartFoxes.Parsed := by decide +kernel

def apartPlace (i : Nat) : Nat := if i = 0 then 3 else i + 7

theorem apart_moved : Moved demoLogic.lower apartPlace plainFoxes.tree plainFoxes.tokens plainFoxes.tags apartFoxes.tree apartFoxes.tokens
    apartFoxes.tags := by
  have h := plainFoxes_parsed
  have h' := apartFoxes_parsed
  have small : ∀ i, Content plainFoxes.tree i → i = 0 ∨ i = 1 ∨ i = 2 := by
    rintro i ⟨⟨d, x, hx⟩ | ⟨d, p, hx⟩, -⟩ <;> rw [Demo.mem h] at hx
    · have : ∀ a ∈ plainFoxes.arcs, a.2.1 = 0 ∨ a.2.1 = 1 ∨ a.2.1 = 2 := by decide
      exact this _ hx
    · have : ∀ a ∈ plainFoxes.arcs, a.2.2 = 0 ∨ a.2.2 = 1 ∨ a.2.2 = 2 := by decide
      exact this _ hx
  have far : ∀ i, i ≠ 0 → i ≠ 1 → apartFoxes.tree.children (apartPlace i) = [] ∧ plainFoxes.tree.children i = [] := by
    intro i h0 h1
    refine ⟨Demo.children h' fun a ha hk => ?_, Demo.children h fun a ha hk => ?_⟩
    · have : ∀ a ∈ apartFoxes.arcs, a.2.1 = 3 ∨ a.2.1 = 8 := by decide
      have := this a ha
      rw [hk] at this
      unfold apartPlace at this
      rw [if_neg h0] at this
      omega
    · have : ∀ a ∈ plainFoxes.arcs, a.2.1 = 1 := by decide
      exact h1 (by rw [← hk, this a ha])
  refine ⟨?_, ?_, ?_, ?_, ?_, ?_, ?_⟩
  · intro i j hij
    unfold apartPlace
    split <;> split <;> omega
  · intro i
    by_cases e0 : i = 0
    · subst e0; decide +kernel
    by_cases e1 : i = 1
    · subst e1; decide +kernel
    rw [(far i e0 e1).1, (far i e0 e1).2]
    rfl
  · intro i hi
    by_cases e0 : i = 0
    · subst e0
      exact absurd (hi .SUBJ 1 ((Demo.mem h _ _ _).mpr (by decide))) (by decide)
    by_cases e1 : i = 1
    · subst e1; decide +kernel
    rw [(far i e0 e1).1, (far i e0 e1).2]
  · intro k hk
    refine Demo.children h' fun a ha hk' => ?_
    have : ∀ a ∈ apartFoxes.arcs, a.2.1 = 3 ∨ a.2.1 = 8 := by decide
    rcases this a ha with e | e
    · exact hk 0 (by rw [← hk', e]; rfl)
    · exact hk 1 (by rw [← hk', e]; rfl)
  · intro i hi _
    rcases small i hi with rfl | rfl | rfl <;> decide +kernel
  · intro i hi _
    rcases small i hi with rfl | rfl | rfl <;> decide
  · intro i p hp
    rw [Demo.mem h] at hp
    exact absurd hp (by simp [plainFoxes])

theorem apart_tuples : ∀ ck, (apartFoxes.tuples ck).map (fun x => x.flatten true) =
    [c!"NTN(fox, bake, format)", c!"NCL(format, be, baked)"] := by decide +kernel

example (x : STuple) : x ∈ plainFoxes.tuples ck ↔ x ∈ apartFoxes.tuples ck :=
  C129_same (Demo.reports plainFoxes_parsed) (Demo.reports apartFoxes_parsed) apart_moved (Demo.neat plainFoxes_parsed (by decide))
    (Demo.neat apartFoxes_parsed (by decide)) x

end Props
