import Verif.Lemmas.Described
import Verif.Props.Simple

/-! C142: sentences whose nouns have adjectives report exactly what they say. -/

namespace Props
open Py Model Spec

variable {ck : Bool} {c : Logic} {tokens : List Str} {tg : List Tag} {t : Tree Dep Nat} {ts : List STuple} {v s o : Nat} {w q : Str}

/-- **C142.** "Red foxes bake nice and cheap cakes": a sentence of subject, verb and object whose nouns have adjectives reports what
it reports without them, and besides that every noun with an adjective without preposition is so, and nothing else. -/
theorem C142_adjectives (H : Reports ck c tokens tg t ts) (T : NeatParse t) (F : Described c tokens tg t v s o)
    (hv : tg[v]? = some .VERB) (hto : ¬ InfTo c.lower tokens (t.children v) v) (hw : SaidBy c tokens tg t v w)
    (hq : ParticipleOf c tokens tg t v q) (hs : Nouns t tg s) (ho : Nouns t tg o)
    (hl : ∀ l, LemmaOf c tokens tg o l → l ∉ reflexives) (args : List Argument) :
    STuple.mk args ∈ ts ↔
      (∃ s' o' a b, Member t s s' ∧ Member t o o' ∧ Noun c tokens tg s' a ∧ Noun c tokens tg o' b ∧
        args = [a, ⟨w, c!"T", affirmed [positive t s', positive t v, positive t o']⟩, b]) ∨
      (w ∉ [c!"have", c!"get"] ∧ ∃ o' b pol, Member t o o' ∧ Noun c tokens tg o' b ∧
        (pol = true ↔ ∃ s', Member t s s' ∧ positive t s' = true) ∧
        args = [b, ⟨c!"be", c!"C", affirmed [pol, positive t v, positive t o']⟩, ⟨q, c!"L", true⟩]) ∨
      ∃ n x x' a b, (.CPL, x) ∈ t.children n ∧ Lacks t x .MARK ∧ Member t x x' ∧ Noun c tokens tg n a ∧
        Exactly.GivenAdj ck c tokens tg t x' b ∧ args = [a, ⟨c!"be", c!"C", affirmed [positive t x', positive t n]⟩, b] := by
  have hov : o ≠ v := by
    rintro rfl
    obtain ⟨tag, h1, h2⟩ := ho o (.inl rfl)
    rw [hv] at h2
    cases h2
    exact absurd h1 (by decide)
  have fv : ¬ Exactly.Correctable tg t v := F.fixed hv (by decide)
  have hself : ¬ Exactly.Self ck c tokens tg t o := F.notSelf (ho o (.inl rfl)) hl
  have acts : ∀ {v' x}, Exactly.Acts ck c tokens tg t v' x ↔ v' = v ∧ Member t s x := F.acts hv hov
  have undergoes : ∀ {v' x}, Exactly.Undergoes ck c tokens tg t v' x ↔ v' = v ∧ Member t o x := F.undergoes hv hself
  have noClause : ∀ {s' v' o' w' u}, ¬ Exactly.HasClause ck c tokens tg t s' v' o' w' u := by
    rintro s' v' o' w' u ⟨-, -, -, h1, h2⟩
    obtain ⟨-, h1⟩ := undergoes.mp h1
    obtain ⟨tag, h3, h4⟩ := ho _ h1
    have := (taken_fixed (F.fixed h4 (by rintro rfl; exact absurd h3 (by decide))) h4 (written_taken h2)).1
    subst this
    exact absurd h3 (by decide)
  have none : ∀ {d : Dep}, d ∈ [Dep.PROP, .IPROP, .EXIST, .IOBJ] → ∀ {p x}, (d, x) ∉ t.children p := by
    intro d hd p x
    simp only [List.mem_cons, List.not_mem_nil, or_false] at hd
    rcases hd with rfl | rfl | rfl | rfl <;> exact F.none (by decide) (by decide) (by decide)
  have main : Exactly.MainClause ck c tokens tg t v w :=
    ⟨⟨⟨(said_written fv hv).mpr hw, fun x => none (by decide), fun x => none (by decide), fun x => none (by decide)⟩, hto⟩,
      fun _ _ _ _ => noClause⟩
  have pred : ∀ {w'}, Exactly.Predicate ck c tokens tg t v w' → w' = w := fun k => saidBy_unique ((said_written fv hv).mp k.1) hw
  rw [C130_exact H T]
  constructor
  · intro h
    cases h with
    | clauseIntr k | clauseTrans k | clauseProp k => exact absurd k noClause
    | intr k1 k2 k3 =>
      obtain ⟨rfl, -⟩ := acts.mp k2
      exact absurd (undergoes.mpr ⟨rfl, .inl rfl⟩) (k3 o)
    | trans k1 k2 k3 k4 k5 =>
      obtain ⟨rfl, m1⟩ := acts.mp k2
      obtain ⟨-, m2⟩ := undergoes.mp k3
      cases pred k1.1.1
      exact .inl ⟨_, _, _, _, m1, m2, (F.named (hs _ m1)).mp k4, (F.named (ho _ m2)).mp k5, rfl⟩
    | recip _ _ k =>
      obtain ⟨y, k, -⟩ := k
      exact absurd k (none (by decide))
    | passive k1 k2 k3 k4 k5 k6 =>
      obtain ⟨rfl, m2⟩ := undergoes.mp k3
      cases pred k1
      right; left
      refine ⟨k2, ?_⟩
      rcases k5 with ⟨-, k5⟩ | ⟨pol, rfl, -, k5⟩
      · exact absurd (acts.mpr ⟨rfl, .inl rfl⟩) (k5 s)
      · refine ⟨_, _, pol, m2, (F.named (ho _ m2)).mp k6, ?_, ?_⟩
        · rw [k5]
          simp [acts]
        · rw [participleOf_unique k4 hq]
          rfl
    | indirect _ _ k =>
      obtain ⟨y, k, -⟩ := k
      exact absurd k (none (by decide))
    | copula k | copulaActive k =>
      obtain ⟨_, _, _, k, -⟩ := k
      exact absurd k (none (by decide))
    | participle _ _ _ _ k => exact absurd (firstArc k) (none (by decide))
    | adjective k k1 k2 =>
      obtain ⟨x, m, -, ⟨k, k3⟩ | ⟨k, -⟩⟩ := k
      · exact .inr (.inr ⟨_, x, _, _, _, k, k3, m, (F.named (F.adj _ _ k).1).mp k1, k2, rfl⟩)
      · obtain ⟨tag, h1, h2, -⟩ := k1
        cases F.taken k (written_taken h1)
        exact absurd h2 (by decide)
    | adjectiveActive _ k1 k2 =>
      obtain ⟨y, _, _, _, k, -⟩ := k2
      obtain ⟨tag, h1, h2⟩ := (F.adj _ _ k).1
      have := (taken_fixed (F.fixed h2 (by rintro rfl; exact absurd h1 (by decide))) h2 k1.1).1
      subst this
      exact absurd h1 (by decide)
  · rintro (⟨s', o', a, b, m1, m2, n1, n2, rfl⟩ | ⟨hw', o', b, pol, m2, n2, hp, rfl⟩ | ⟨n, x, x', a, b, k, k1, m, n1, n2, rfl⟩)
    · exact .trans main (acts.mpr ⟨rfl, m1⟩) (undergoes.mpr ⟨rfl, m2⟩) ((F.named (hs _ m1)).mpr n1) ((F.named (ho _ m2)).mpr n2)
    · exact .passive (l := [pol]) main.1.1 hw' (undergoes.mpr ⟨rfl, m2⟩) hq
        (.inr ⟨pol, rfl, ⟨s, acts.mpr ⟨rfl, .inl rfl⟩⟩, by rw [hp]; simp [acts]⟩) ((F.named (ho _ m2)).mpr n2)
    · exact .adjective ⟨x, m, F.isAdj k, .inl ⟨k, k1⟩⟩ ((F.named (F.adj _ _ k).1).mpr n1) n2

/-! ### Example -/

/-- "No baked foxes bake him or baked formats." -/
def bakedBake : Demo where
  tokens := [c!"No", c!"baked", c!"foxes", c!"bake", c!"him", c!"or", c!"baked", c!"formats"]
  tags := [.DET, .ADJ, .NOUN, .VERB, .PRON, .CONJ, .ADJ, .NOUN]
  deps := [.NEG, .CPL, .SUBJ, .ROOT, .OBJ, .NODEP, .CPL, .OR]
  trans := [(1, 2, .LEFT), (0, 2, .LEFT), (2, 3, .LEFT), (3, 4, .RIGHT), (6, 7, .LEFT), (4, 7, .RIGHT)]
  root := 3
  arcs := [(.CPL, 2, 1), (.NEG, 2, 0), (.SUBJ, 3, 2), (.OBJ, 3, 4), (.CPL, 7, 6), (.OR, 4, 7)]

theorem bakedBake_parsed : bakedBake.Parsed := by decide +kernel

theorem bakedBake_tuples : ∀ ck, (bakedBake.tuples ck).map (fun x => x.flatten true) =
    [c!"NCL(fox, NOT be, baked)", c!"NTO(fox, NOT bake, he)", c!"NTN(fox, NOT bake, format)", c!"NCL(format, be, baked)",
      c!"OCL(he, NOT be, baked)", c!"NCL(format, NOT be, baked)"] := by decide +kernel

theorem Demo.described {d : Demo} (h : d.Parsed) {v s o : Nat} (k : (.SUBJ, v, s) ∈ d.arcs ∧ (.OBJ, v, o) ∈ d.arcs ∧
    (∀ a ∈ d.arcs, a.1 ∉ functional → a.2.1 = v → (a.1, a.2.2) = (.SUBJ, s) ∨ (a.1, a.2.2) = (.OBJ, o)) ∧
    ∀ a ∈ d.arcs, a.1 ∉ functional → a.2.1 ≠ v → a.1 = .AND ∨ a.1 = .OR ∨ a.1 = .CPL)
    (ka : ∀ a ∈ d.arcs, a.1 = .CPL → (∃ tag ∈ nominal, d.tags[a.2.1]? = some tag) ∧ d.tags[a.2.2]? = some .ADJ)
    (kl : ∀ a ∈ d.arcs, a.1 = .CPL → ∃ l, LemmaOf demoLogic d.tokens d.tags a.2.2 l) :
    Described demoLogic d.tokens d.tags d.tree v s o := by
  obtain ⟨k1, k2, k3, k4⟩ := k
  refine ⟨(Demo.mem h _ _ _).mpr k1, (Demo.mem h _ _ _).mpr k2, fun l x hx hl => ?_, fun q l x hx hq hl => ?_, fun i x hx => ?_⟩
  · exact k3 _ ((Demo.mem h _ _ _).mp hx) hl rfl
  · exact k4 _ ((Demo.mem h _ _ _).mp hx) hl hq
  · obtain ⟨h1, h2⟩ := ka _ ((Demo.mem h _ _ _).mp hx) rfl
    obtain ⟨l, h3⟩ := kl _ ((Demo.mem h _ _ _).mp hx) rfl
    exact ⟨h1, h2, l, h3, List.not_mem_nil⟩

example (args : List Argument) : STuple.mk args ∈ bakedBake.tuples ck ↔
    (∃ s' o' a b, Member bakedBake.tree 2 s' ∧ Member bakedBake.tree 4 o' ∧ Noun demoLogic bakedBake.tokens bakedBake.tags s' a ∧
      Noun demoLogic bakedBake.tokens bakedBake.tags o' b ∧
      args = [a, ⟨c!"bake", c!"T", affirmed [positive bakedBake.tree s', positive bakedBake.tree 3, positive bakedBake.tree o']⟩, b]) ∨
    (c!"bake" ∉ [c!"have", c!"get"] ∧ ∃ o' b pol, Member bakedBake.tree 4 o' ∧ Noun demoLogic bakedBake.tokens bakedBake.tags o' b ∧
      (pol = true ↔ ∃ s', Member bakedBake.tree 2 s' ∧ positive bakedBake.tree s' = true) ∧
      args = [b, ⟨c!"be", c!"C", affirmed [pol, positive bakedBake.tree 3, positive bakedBake.tree o']⟩, ⟨c!"baked", c!"L", true⟩]) ∨
    ∃ n x x' a b, (.CPL, x) ∈ bakedBake.tree.children n ∧ Lacks bakedBake.tree x .MARK ∧ Member bakedBake.tree x x' ∧
      Noun demoLogic bakedBake.tokens bakedBake.tags n a ∧
      Exactly.GivenAdj ck demoLogic bakedBake.tokens bakedBake.tags bakedBake.tree x' b ∧
      args = [a, ⟨c!"be", c!"C", affirmed [positive bakedBake.tree x', positive bakedBake.tree n]⟩, b] := by
  have h := bakedBake_parsed
  have l1 : LemmaOf demoLogic bakedBake.tokens bakedBake.tags 1 c!"baked" :=
    ⟨c!"baked", .ADJ, none, ⟨c!"baked", rfl, by decide +kernel⟩, rfl, by decide +kernel⟩
  have l3 : LemmaOf demoLogic bakedBake.tokens bakedBake.tags 3 c!"bake" :=
    ⟨c!"bake", .VERB, none, ⟨c!"bake", rfl, by decide +kernel⟩, rfl, by decide +kernel⟩
  have l4 : LemmaOf demoLogic bakedBake.tokens bakedBake.tags 4 c!"him" :=
    ⟨c!"him", .PRON, none, ⟨c!"him", rfl, by decide +kernel⟩, rfl, by decide +kernel⟩
  have l6 : LemmaOf demoLogic bakedBake.tokens bakedBake.tags 6 c!"baked" :=
    ⟨c!"baked", .ADJ, none, ⟨c!"baked", rfl, by decide +kernel⟩, rfl, by decide +kernel⟩
  exact C142_adjectives (v := 3) (s := 2) (o := 4) (Demo.reports h) (Demo.neat h (by decide))
    (Demo.described h (by decide) (by decide) (by
      intro a ha hc
      have : a.2.2 = 1 ∨ a.2.2 = 6 := by revert a; decide
      rcases this with e | e <;> rw [e]
      · exact ⟨_, l1⟩
      · exact ⟨_, l6⟩)) rfl (Demo.noTo h (by decide))
    ⟨_, [], rfl, l3, Demo.noParts h (by decide), rfl⟩ ⟨_, c!"baked", [], l3, by decide +kernel, Demo.noParts h (by decide), rfl⟩
    (Demo.nouns h (by decide)) (Demo.nouns h (by decide)) (fun l hl => by rw [LemmaOf_unique hl l4]; decide) args

end Props
