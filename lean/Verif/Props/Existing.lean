import Verif.Lemmas.Existing
import Verif.Props.Simple

/-! C141: that something exists is not reported. -/

namespace Props
open Py Model Spec

variable {ck : Bool} {c : Logic} {tokens : List Str} {tg : List Tag} {t : Tree Dep Nat} {ts : List STuple} {v e : Nat}

/-- **C141.** "There are no foxes": a sentence that only says that something exists reports nothing, whatever subjects, objects and
recipients the verb has. -/
theorem C141_existence (H : Reports ck c tokens tg t ts) (T : NeatParse t) (F : Existing t v e) : ts = [] := by
  have noPredicate : ∀ {w}, ¬ Exactly.Predicate ck c tokens tg t v w := fun k => k.2.2.2 e F.exist
  refine List.eq_nil_iff_forall_not_mem.mpr fun ⟨args⟩ => ?_
  rw [C130_exact H T]
  intro h
  cases h with
  | clauseIntr k | clauseTrans k | clauseProp k =>
    obtain ⟨k1, k2, -⟩ := k
    cases F.acts k2
    exact noPredicate k1.1
  | intr k1 k2 | trans k1 k2 | recip k1 k2 =>
    cases F.acts k2
    exact noPredicate k1.1.1
  | passive k1 _ k2 =>
    cases F.undergoes k2
    exact noPredicate k1
  | indirect _ _ k =>
    obtain ⟨_, k, -⟩ := k
    exact F.none (by decide) k
  | copula k | copulaActive k =>
    obtain ⟨_, _, _, k, -⟩ := k
    exact F.none (by decide) k
  | participle k => exact F.none (by decide) k
  | adjective k | adjectiveActive k =>
    obtain ⟨_, _, _, ⟨k, -⟩ | ⟨k, -⟩⟩ := k <;> exact F.none (by decide) k

/-! ### Example -/

/-- "There are no foxes or formats." -/
def thereAre : Demo where
  tokens := [c!"There", c!"are", c!"no", c!"foxes", c!"or", c!"formats"]
  tags := [.THERE, .VERB, .DET, .NOUN, .CONJ, .NOUN]
  deps := [.SUBJ, .ROOT, .NEG, .EXIST, .NODEP, .OR]
  trans := [(0, 1, .LEFT), (2, 3, .LEFT), (1, 3, .RIGHT), (3, 5, .RIGHT)]
  root := 1
  arcs := [(.SUBJ, 1, 0), (.NEG, 3, 2), (.EXIST, 1, 3), (.OR, 3, 5)]

theorem thereAre_parsed : thereAre.Parsed := by decide +kernel

theorem Demo.existing {d : Demo} (h : d.Parsed) {v e : Nat} (k : (.EXIST, v, e) ∈ d.arcs ∧ (∀ a ∈ d.arcs, a.1 ∉ functional → a.2.1 = v →
      a.1 ∈ [.EXIST, .SUBJ, .OBJ, .IOBJ]) ∧
    ∀ a ∈ d.arcs, a.1 ∉ functional → a.2.1 ≠ v → a.1 = .AND ∨ a.1 = .OR) : Existing d.tree v e := by
  obtain ⟨k1, k2, k3⟩ := k
  refine ⟨(Demo.mem h _ _ _).mpr k1, fun l x hx hl => ?_, fun q l x hx hq hl => ?_⟩
  · exact k2 _ ((Demo.mem h _ _ _).mp hx) hl rfl
  · exact k3 _ ((Demo.mem h _ _ _).mp hx) hl hq

example : thereAre.tuples ck = [] :=
  C141_existence (v := 1) (e := 3) (Demo.reports thereAre_parsed) (Demo.neat thereAre_parsed (by decide))
    (Demo.existing thereAre_parsed (by decide))

/-- "Foxes bake formats", with the formats labelled as existing. -/
def bakeThere : Demo where
  tokens := [c!"Foxes", c!"bake", c!"formats"]
  tags := [.NOUN, .VERB, .NOUN]
  deps := [.SUBJ, .ROOT, .EXIST]
  trans := [(0, 1, .LEFT), (1, 2, .RIGHT)]
  root := 1
  arcs := [(.SUBJ, 1, 0), (.EXIST, 1, 2)]

theorem bakeThere_parsed : bakeThere.Parsed := by decide +kernel

example : bakeThere.tuples ck = [] :=
  C141_existence (v := 1) (e := 2) (Demo.reports bakeThere_parsed) (Demo.neat bakeThere_parsed (by decide))
    (Demo.existing bakeThere_parsed (by decide))

end Props
