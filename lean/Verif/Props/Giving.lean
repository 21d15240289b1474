import Verif.Lemmas.Giving
import Verif.Props.Simple

/-! C139: sentences with a recipient report exactly what they say. -/

namespace Props
open Py Model Spec

variable {ck : Bool} {c : Logic} {tokens : List Str} {tg : List Tag} {t : Tree Dep Nat} {ts : List STuple} {v s r o : Nat} {w q : Str}

/-- **C139.** "Foxes bake hens and ducks cakes": a sentence of subject, verb, recipient and object reports what is given and who
receives for each of the coordinated subjects, the passive form for each of the objects, and nothing else. -/
theorem C139_recipient (H : Reports ck c tokens tg t ts) (T : NeatParse t) (F : Giving t v s r o)
    (hv : tg[v]? = some .VERB) (hto : ¬ InfTo c.lower tokens (t.children v) v) (hw : SaidBy c tokens tg t v w)
    (hq : ParticipleOf c tokens tg t v q) (hs : Nouns t tg s) (hr : Nouns t tg r) (ho : Nouns t tg o)
    (hl : ∀ l, LemmaOf c tokens tg o l → l ∉ reflexives) (args : List Argument) :
    STuple.mk args ∈ ts ↔
      (∃ s' o' a b, Member t s s' ∧ Member t o o' ∧ Noun c tokens tg s' a ∧ Noun c tokens tg o' b ∧
        args = [a, ⟨w, c!"T", affirmed [positive t s', positive t v, positive t o']⟩, b]) ∨
      (∃ s' r' a b, Member t s s' ∧ Member t r r' ∧ Noun c tokens tg s' a ∧ Noun c tokens tg r' b ∧
        args = [a, ⟨w, c!"R", affirmed [positive t s', positive t v, positive t r']⟩, b]) ∨
      (w ∉ [c!"have", c!"get"] ∧ ∃ o' b pol, Member t o o' ∧ Noun c tokens tg o' b ∧
        (pol = true ↔ ∃ s', Member t s s' ∧ positive t s' = true) ∧
        args = [b, ⟨c!"be", c!"C", affirmed [pol, positive t v, positive t o']⟩, ⟨q, c!"L", true⟩]) := by
  have hov : o ≠ v := by
    rintro rfl
    obtain ⟨tag, h1, h2⟩ := ho o (.inl rfl)
    rw [hv] at h2
    cases h2
    exact absurd h1 (by decide)
  have fixed : ∀ {i}, ¬ Exactly.Correctable tg t i := F.fixed
  have hc : ∀ p x, (.CPL, x) ∉ t.children p := fun p x => F.none (by decide)
  have hself : ¬ Exactly.Self ck c tokens tg t o := not_self fixed hc (ho o (.inl rfl)) hl
  have acts : ∀ {v' x}, Exactly.Acts ck c tokens tg t v' x ↔ v' = v ∧ Member t s x := F.acts hov
  have undergoes : ∀ {v' x}, Exactly.Undergoes ck c tokens tg t v' x ↔ v' = v ∧ Member t o x := F.undergoes hself
  have noClause : ∀ {s' v' o' w' u}, ¬ Exactly.HasClause ck c tokens tg t s' v' o' w' u := by
    rintro s' v' o' w' u ⟨-, -, -, h1, h2⟩
    obtain ⟨-, h1⟩ := undergoes.mp h1
    obtain ⟨tag, h3, h4⟩ := ho _ h1
    have : tag = .VERB := by
      cases h2 with
      | particles k => exact (taken_fixed fixed h4 k).1.symm
      | other k => exact (taken_fixed fixed h4 k).1.symm
    subst this
    exact absurd h3 (by decide)
  have noProp : ∀ {p x}, (.PROP, x) ∉ t.children p := F.none (by decide)
  have main : Exactly.MainClause ck c tokens tg t v w :=
    ⟨⟨⟨(said_written fixed hv).mpr hw, fun x => noProp, fun x => F.none (by decide),
      fun x => F.none (by decide)⟩, hto⟩, fun _ _ _ _ => noClause⟩
  have pred : ∀ {w'}, Exactly.Predicate ck c tokens tg t v w' → w' = w := fun k =>
    saidBy_unique ((said_written fixed hv).mp k.1) hw
  have named : ∀ {i x}, Nouns t tg i → Member t i x → ∀ {a}, Exactly.Named ck c tokens tg t x a ↔ Noun c tokens tg x a :=
    fun h1 h2 => noun_named fixed hc (h1 _ h2)
  rw [C130_exact H T]
  constructor
  · intro h
    cases h with
    | clauseIntr k | clauseTrans k | clauseProp k => exact absurd k noClause
    | intr k1 k2 k3 =>
      obtain ⟨rfl, -⟩ := acts.mp k2
      exact absurd (undergoes.mpr ⟨rfl, .inl rfl⟩) (k3 o)
    | trans k1 k2 k3 k4 k5 =>
      obtain ⟨rfl, m1⟩ := acts.mp k2
      obtain ⟨-, m2⟩ := undergoes.mp k3
      cases pred k1.1.1
      exact .inl ⟨_, _, _, _, m1, m2, (named hs m1).mp k4, (named ho m2).mp k5, rfl⟩
    | recip k1 k2 k3 k4 k5 =>
      obtain ⟨rfl, m1⟩ := acts.mp k2
      obtain ⟨-, m2⟩ := F.hangs.mp k3
      cases pred k1.1.1
      exact .inr (.inl ⟨_, _, _, _, m1, m2, (named hs m1).mp k4, (named hr m2).mp k5, rfl⟩)
    | passive k1 k2 k3 k4 k5 k6 =>
      obtain ⟨rfl, m2⟩ := undergoes.mp k3
      cases pred k1
      right; right
      refine ⟨k2, ?_⟩
      rcases k5 with ⟨-, k5⟩ | ⟨pol, rfl, -, k5⟩
      · exact absurd (acts.mpr ⟨rfl, .inl rfl⟩) (k5 s)
      · refine ⟨_, _, pol, m2, (named ho m2).mp k6, ?_, ?_⟩
        · rw [k5]
          simp [acts]
        · rw [participleOf_unique k4 hq]
          rfl
    | indirect _ _ k =>
      obtain ⟨y, k, -⟩ := k
      exact absurd k (F.none (by decide))
    | copula k | copulaActive k =>
      obtain ⟨_, _, _, k, -⟩ := k
      exact absurd k noProp
    | participle k => exact absurd k (hc _ _)
    | adjective k | adjectiveActive k =>
      obtain ⟨_, _, _, ⟨k, -⟩ | ⟨k, -⟩⟩ := k <;> exact absurd k (hc _ _)
  · rintro (⟨s', o', a, b, m1, m2, n1, n2, rfl⟩ | ⟨s', r', a, b, m1, m2, n1, n2, rfl⟩ | ⟨hw', o', b, pol, m2, n2, hp, rfl⟩)
    · exact .trans main (acts.mpr ⟨rfl, m1⟩) (undergoes.mpr ⟨rfl, m2⟩) ((named hs m1).mpr n1) ((named ho m2).mpr n2)
    · exact .recip main (acts.mpr ⟨rfl, m1⟩) (F.hangs.mpr ⟨rfl, m2⟩) ((named hs m1).mpr n1) ((named hr m2).mpr n2)
    · exact .passive (l := [pol]) main.1.1 hw' (undergoes.mpr ⟨rfl, m2⟩) hq
        (.inr ⟨pol, rfl, ⟨s, acts.mpr ⟨rfl, .inl rfl⟩⟩, by rw [hp]; simp [acts]⟩) ((named ho m2).mpr n2)

/-! ### Example -/

/-- "Foxes bake him and foxes no formats." -/
def bakesHim : Demo where
  tokens := [c!"Foxes", c!"bake", c!"him", c!"and", c!"foxes", c!"no", c!"formats"]
  tags := [.NOUN, .VERB, .PRON, .CONJ, .NOUN, .DET, .NOUN]
  deps := [.SUBJ, .ROOT, .IOBJ, .NODEP, .AND, .NEG, .OBJ]
  trans := [(0, 1, .LEFT), (1, 2, .RIGHT), (2, 4, .RIGHT), (5, 6, .LEFT), (4, 6, .REDUCE), (2, 6, .REDUCE), (1, 6, .RIGHT)]
  root := 1
  arcs := [(.SUBJ, 1, 0), (.IOBJ, 1, 2), (.AND, 2, 4), (.NEG, 6, 5), (.OBJ, 1, 6)]

theorem bakesHim_parsed : bakesHim.Parsed := by decide +kernel

theorem bakesHim_tuples : ∀ ck, (bakesHim.tuples ck).map (fun x => x.flatten true) =
    [c!"NTN(fox, NOT bake, format)", c!"NRO(fox, bake, he)", c!"NRN(fox, bake, fox)", c!"NCL(format, NOT be, baked)"] := by decide +kernel

theorem Demo.giving {d : Demo} (h : d.Parsed) {v s r o : Nat} (k : (.SUBJ, v, s) ∈ d.arcs ∧ (.IOBJ, v, r) ∈ d.arcs ∧
    (.OBJ, v, o) ∈ d.arcs ∧ (∀ a ∈ d.arcs, a.1 ∉ functional → a.2.1 = v →
      (a.1, a.2.2) = (.SUBJ, s) ∨ (a.1, a.2.2) = (.IOBJ, r) ∨ (a.1, a.2.2) = (.OBJ, o)) ∧
    ∀ a ∈ d.arcs, a.1 ∉ functional → a.2.1 ≠ v → a.1 = .AND ∨ a.1 = .OR) : Giving d.tree v s r o := by
  obtain ⟨k1, k2, k3, k4, k5⟩ := k
  refine ⟨(Demo.mem h _ _ _).mpr k1, (Demo.mem h _ _ _).mpr k2, (Demo.mem h _ _ _).mpr k3, fun l x hx hl => ?_,
    fun q l x hx hq hl => ?_⟩
  · exact k4 _ ((Demo.mem h _ _ _).mp hx) hl rfl
  · exact k5 _ ((Demo.mem h _ _ _).mp hx) hl hq

example (args : List Argument) : STuple.mk args ∈ bakesHim.tuples ck ↔
    (∃ s' o' a b, Member bakesHim.tree 0 s' ∧ Member bakesHim.tree 6 o' ∧ Noun demoLogic bakesHim.tokens bakesHim.tags s' a ∧
      Noun demoLogic bakesHim.tokens bakesHim.tags o' b ∧
      args = [a, ⟨c!"bake", c!"T", affirmed [positive bakesHim.tree s', positive bakesHim.tree 1, positive bakesHim.tree o']⟩, b]) ∨
    (∃ s' r' a b, Member bakesHim.tree 0 s' ∧ Member bakesHim.tree 2 r' ∧ Noun demoLogic bakesHim.tokens bakesHim.tags s' a ∧
      Noun demoLogic bakesHim.tokens bakesHim.tags r' b ∧
      args = [a, ⟨c!"bake", c!"R", affirmed [positive bakesHim.tree s', positive bakesHim.tree 1, positive bakesHim.tree r']⟩, b]) ∨
    (c!"bake" ∉ [c!"have", c!"get"] ∧ ∃ o' b pol, Member bakesHim.tree 6 o' ∧ Noun demoLogic bakesHim.tokens bakesHim.tags o' b ∧
      (pol = true ↔ ∃ s', Member bakesHim.tree 0 s' ∧ positive bakesHim.tree s' = true) ∧
      args = [b, ⟨c!"be", c!"C", affirmed [pol, positive bakesHim.tree 1, positive bakesHim.tree o']⟩, ⟨c!"baked", c!"L", true⟩]) := by
  have h := bakesHim_parsed
  have l1 : LemmaOf demoLogic bakesHim.tokens bakesHim.tags 1 c!"bake" :=
    ⟨c!"bake", .VERB, none, ⟨c!"bake", rfl, by decide +kernel⟩, rfl, by decide +kernel⟩
  have l6 : LemmaOf demoLogic bakesHim.tokens bakesHim.tags 6 c!"format" :=
    ⟨c!"formats", .NOUN, some .PLURAL, ⟨c!"formats", rfl, by decide +kernel⟩, rfl, by decide +kernel⟩
  exact C139_recipient (v := 1) (s := 0) (r := 2) (o := 6) (Demo.reports h) (Demo.neat h (by decide)) (Demo.giving h (by decide)) rfl
    (Demo.noTo h (by decide)) ⟨_, [], rfl, l1, Demo.noParts h (by decide), rfl⟩
    ⟨_, c!"baked", [], l1, by decide +kernel, Demo.noParts h (by decide), rfl⟩ (Demo.nouns h (by decide)) (Demo.nouns h (by decide))
    (Demo.nouns h (by decide)) (fun l hl => by rw [LemmaOf_unique hl l6]; decide) args

end Props
