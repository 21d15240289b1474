import Verif.Lemmas.Calling
import Verif.Props.Simple

/-! C140: sentences with a property of the object report exactly that property. -/

namespace Props
open Py Model Spec

variable {ck : Bool} {c : Logic} {tokens : List Str} {tg : List Tag} {t : Tree Dep Nat} {ts : List STuple} {v s o p : Nat} {q : Str}

/-- **C140.** "People call him and her stars": a sentence of subject, verb, object and property of the object reports every
coordinated property of every coordinated object, with the participle of the verb, and nothing else; nobody is said to act. -/
theorem C140_calling (H : Reports ck c tokens tg t ts) (T : NeatParse t) (F : Calling t v s o p)
    (hq : ParticipleOf c tokens tg t v q) (ho : Nouns t tg o) (hop : ¬ Member t o p) (args : List Argument) :
    STuple.mk args ∈ ts ↔ ∃ o' p' a b, Member t o o' ∧ Member t p p' ∧ Noun c tokens tg o' a ∧ Exactly.Given ck c tokens tg t p' b ∧
      args = [a, ⟨c!"be " ++ q, c!"C", affirmed [positive t s, positive t v, positive t o', positive t p']⟩, b] := by
  have hc : ∀ p x, (.CPL, x) ∉ t.children p := fun p x => F.none (by decide)
  have noClause : ∀ {s' v' o' w' u}, ¬ Exactly.HasClause ck c tokens tg t s' v' o' w' u := by
    rintro s' v' o' w' u ⟨h1, h2, -⟩
    cases F.acts h2
    exact F.noPredicate h1.1
  have noProp : ∀ {p x}, (.PROP, x) ∉ t.children p := F.none (by decide)
  have named : ∀ {x}, Member t o x → ∀ {a}, Exactly.Named ck c tokens tg t x a ↔ Noun c tokens tg x a :=
    fun h2 => noun_named (F.fixed (by rintro rfl; exact hop h2)) hc (ho _ h2)
  have firstObj : ∀ {i}, Exactly.First t v .OBJ i ↔ i = o := first_only F.obj fun y h => (F.isObj h).2
  have firstSubj : ∀ {i}, Exactly.First t v .SUBJ i ↔ i = s := first_only F.subj fun y h => (F.isSubj h).2
  rw [C130_exact H T]
  constructor
  · intro h
    cases h with
    | clauseIntr k | clauseTrans k | clauseProp k => exact absurd k noClause
    | intr k1 k2 | trans k1 k2 | recip k1 k2 =>
      cases F.acts k2
      exact absurd k1.1.1 F.noPredicate
    | passive k1 _ k2 =>
      cases F.undergoes k2
      exact absurd k1 F.noPredicate
    | indirect k1 k2 k3 k4 k5 k6 k7 =>
      obtain ⟨rfl, m⟩ := F.hangs.mp k3
      cases firstObj.mp k1
      rw [participleOf_unique k4 hq]
      rcases k5 with ⟨-, k5⟩ | ⟨i, k5, rfl⟩
      · exact absurd F.subj (k5 s)
      · cases firstSubj.mp k5
        exact ⟨_, _, _, _, k2, m, (named k2).mp k6, k7, rfl⟩
    | copula k | copulaActive k =>
      obtain ⟨_, _, _, k, -⟩ := k
      exact absurd k noProp
    | participle k => exact absurd k (hc _ _)
    | adjective k | adjectiveActive k =>
      obtain ⟨_, _, _, ⟨k, -⟩ | ⟨k, -⟩⟩ := k <;> exact absurd k (hc _ _)
  · rintro ⟨o', p', a, b, m1, m2, n1, n2, rfl⟩
    exact .indirect (l := [positive t s]) (firstObj.mpr rfl) m1 (F.hangs.mpr ⟨rfl, m2⟩) hq (.inr ⟨s, firstSubj.mpr rfl, rfl⟩)
      ((named m1).mpr n1) n2

/-! ### Example -/

/-- "No foxes bake foxes or formats formats." -/
def bakeInto : Demo where
  tokens := [c!"No", c!"foxes", c!"bake", c!"foxes", c!"or", c!"formats", c!"formats"]
  tags := [.DET, .NOUN, .VERB, .NOUN, .CONJ, .NOUN, .NOUN]
  deps := [.NEG, .SUBJ, .ROOT, .OBJ, .NODEP, .OR, .IPROP]
  trans := [(0, 1, .LEFT), (1, 2, .LEFT), (2, 3, .RIGHT), (3, 5, .RIGHT), (5, 6, .REDUCE), (3, 6, .REDUCE), (2, 6, .RIGHT)]
  root := 2
  arcs := [(.NEG, 1, 0), (.SUBJ, 2, 1), (.OBJ, 2, 3), (.OR, 3, 5), (.IPROP, 2, 6)]

theorem bakeInto_parsed : bakeInto.Parsed := by decide +kernel

theorem bakeInto_tuples : ∀ ck, (bakeInto.tuples ck).map (fun x => x.flatten true) =
    [c!"NCN(fox, NOT be baked, format)", c!"NCN(format, NOT be baked, format)"] := by decide +kernel

theorem Demo.calling {d : Demo} (h : d.Parsed) {v s o p : Nat} (k : (.SUBJ, v, s) ∈ d.arcs ∧ (.OBJ, v, o) ∈ d.arcs ∧
    (.IPROP, v, p) ∈ d.arcs ∧ (∀ a ∈ d.arcs, a.1 ∉ functional → a.2.1 = v →
      (a.1, a.2.2) = (.SUBJ, s) ∨ (a.1, a.2.2) = (.OBJ, o) ∨ (a.1, a.2.2) = (.IPROP, p)) ∧
    ∀ a ∈ d.arcs, a.1 ∉ functional → a.2.1 ≠ v → a.1 = .AND ∨ a.1 = .OR) : Calling d.tree v s o p := by
  obtain ⟨k1, k2, k3, k4, k5⟩ := k
  refine ⟨(Demo.mem h _ _ _).mpr k1, (Demo.mem h _ _ _).mpr k2, (Demo.mem h _ _ _).mpr k3, fun l x hx hl => ?_,
    fun q l x hx hq hl => ?_⟩
  · exact k4 _ ((Demo.mem h _ _ _).mp hx) hl rfl
  · exact k5 _ ((Demo.mem h _ _ _).mp hx) hl hq

example (args : List Argument) : STuple.mk args ∈ bakeInto.tuples ck ↔ ∃ o' p' a b, Member bakeInto.tree 3 o' ∧
    Member bakeInto.tree 6 p' ∧ Noun demoLogic bakeInto.tokens bakeInto.tags o' a ∧
    Exactly.Given ck demoLogic bakeInto.tokens bakeInto.tags bakeInto.tree p' b ∧
    args = [a, ⟨c!"be baked", c!"C", affirmed [positive bakeInto.tree 1, positive bakeInto.tree 2, positive bakeInto.tree o',
      positive bakeInto.tree p']⟩, b] := by
  have h := bakeInto_parsed
  have l2 : LemmaOf demoLogic bakeInto.tokens bakeInto.tags 2 c!"bake" :=
    ⟨c!"bake", .VERB, none, ⟨c!"bake", rfl, by decide +kernel⟩, rfl, by decide +kernel⟩
  exact C140_calling (v := 2) (s := 1) (o := 3) (p := 6) (q := c!"baked") (Demo.reports h) (Demo.neat h (by decide))
    (Demo.calling h (by decide)) ⟨_, c!"baked", [], l2, by decide +kernel, Demo.noParts h (by decide), rfl⟩
    (Demo.nouns h (by decide)) (by rw [Demo.member h]; decide) args

end Props
