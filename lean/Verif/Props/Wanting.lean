import Verif.Lemmas.Described
import Verif.Lemmas.Wanting
import Verif.Props.Clauses
import Verif.Props.Simple

/-! C143: sentences with a clause as object report exactly what they say. -/

namespace Props
open Py Model Spec

variable {ck : Bool} {c : Logic} {tokens : List Str} {tg : List Tag} {t : Tree Dep Nat} {ts : List STuple} {v s u a o : Nat}
  {w x q : Str}

/-- **C143.** "People want foxes to bake cakes": a sentence whose object is a clause of subject, verb and object reports the whole of it
for each of the coordinated nouns, and the passive form of the clause; neither that foxes bake cakes nor anything else. -/
theorem C143_clause (H : Reports ck c tokens tg t ts) (T : NeatParse t) (F : Wanting t v s u a o)
    (hv : tg[v]? = some .VERB) (hu : tg[u]? = some .VERB) (hvu : v ≠ u) (hto : ¬ InfTo c.lower tokens (t.children v) v)
    (hw : SaidBy c tokens tg t v w) (hx : SaidBy c tokens tg t u x) (hq : ParticipleOf c tokens tg t u q) (hs : Nouns t tg s)
    (ha : Nouns t tg a) (ho : Nouns t tg o) (hxr : x ∉ reflexives) (har : ∀ l, LemmaOf c tokens tg a l → l ∉ reflexives)
    (hor : ∀ l, LemmaOf c tokens tg o l → l ∉ reflexives) (args : List Argument) :
    STuple.mk args ∈ ts ↔
      (∃ s' a' o' A B C, Member t s s' ∧ Member t a a' ∧ Member t o o' ∧ Noun c tokens tg s' A ∧ Noun c tokens tg a' B ∧
        Noun c tokens tg o' C ∧ args = [A, ⟨w, c!"T", affirmed [positive t s', positive t v, positive t a', positive t u,
          positive t o']⟩, B, ⟨x, c!"T", true⟩, C]) ∨
      (x ∉ [c!"have", c!"get"] ∧ ∃ o' C pol, Member t o o' ∧ Noun c tokens tg o' C ∧
        (pol = true ↔ ∃ a', Member t a a' ∧ positive t a' = true) ∧
        args = [C, ⟨c!"be", c!"C", affirmed [pol, positive t u, positive t o']⟩, ⟨q, c!"L", true⟩]) := by
  have hc := F.noCpl
  have notVerb : ∀ {r i}, Nouns t tg r → Member t r i → tg[i]? ≠ some .VERB := by
    intro r i h1 h2 h3
    obtain ⟨tag, h4, h5⟩ := h1 _ h2
    rw [h3] at h5
    cases h5
    exact absurd h4 (by decide)
  have hvo : v ≠ o := by
    rintro rfl
    exact notVerb ho (.inl rfl) hv
  have said : ∀ {i tag w'}, tg[i]? = some .VERB → Exactly.Written ck c tokens tg t i tag w' → SaidBy c tokens tg t i w' := by
    intro i tag w' h1 h2
    have : tag = .VERB := (taken_fixed F.fixed h1 (written_taken h2)).1
    subst this
    exact (said_written F.fixed h1).mp h2
  have selfU : ¬ Exactly.Self ck c tokens tg t u := by
    rintro ⟨tag, w', h1, h2⟩
    rw [saidBy_unique (said hu h2) hx] at h1
    exact hxr h1
  have selfA : ¬ Exactly.Self ck c tokens tg t a := not_self F.fixed hc (ha a (.inl rfl)) har
  have selfO : ¬ Exactly.Self ck c tokens tg t o := not_self F.fixed hc (ho o (.inl rfl)) hor
  have acts : ∀ {v' y}, Exactly.Acts ck c tokens tg t v' y ↔ v' = v ∧ Member t s y ∨ v' = u ∧ Member t a y := F.acts hvu hvo selfA
  have undergoes : ∀ {v' y}, Exactly.Undergoes ck c tokens tg t v' y ↔ v' = v ∧ y = u ∨ v' = u ∧ Member t o y := F.undergoes selfU selfO
  have none : ∀ {d : Dep}, d ∈ [Dep.PROP, .IPROP, .EXIST, .IOBJ] → ∀ {p y}, (d, y) ∉ t.children p := by
    intro d hd p y
    simp only [List.mem_cons, List.not_mem_nil, or_false] at hd
    rcases hd with rfl | rfl | rfl | rfl <;> exact F.none (by decide) (by decide) (by decide)
  have predicate : ∀ {i w'}, tg[i]? = some .VERB → SaidBy c tokens tg t i w' → Exactly.Predicate ck c tokens tg t i w' := fun h1 h2 =>
    ⟨(said_written F.fixed h1).mpr h2, fun y => none (by decide), fun y => none (by decide), fun y => none (by decide)⟩
  have named : ∀ {r y}, Nouns t tg r → Member t r y → ∀ {A}, Exactly.Named ck c tokens tg t y A ↔ Noun c tokens tg y A :=
    fun h1 h2 => noun_named F.fixed hc (h1 _ h2)
  have verbNotNamed : ∀ {i A}, tg[i]? = some .VERB → ¬ Exactly.Named ck c tokens tg t i A := by
    rintro i A h1 ⟨tag, h2, h3, -⟩
    have : tag = .VERB := (taken_fixed F.fixed h1 (written_taken h2)).1
    subst this
    exact absurd h3 (by decide)
  have isVerb : ∀ {i w'}, Exactly.Written ck c tokens tg t i .VERB w' → ∀ {r}, Nouns t tg r → ¬ Member t r i := by
    intro i w' h1 r h2 h3
    obtain ⟨tag, h4, h5⟩ := h2 _ h3
    have : Tag.VERB = tag := (taken_fixed F.fixed h5 (written_taken h1)).1
    subst this
    exact absurd h4 (by decide)
  have clause : ∀ {s' v' o' w' x'}, Exactly.HasClause ck c tokens tg t s' v' o' w' x' → v' = v ∧ o' = u ∧ Member t s s' ∧ w' = w ∧ x' = x := by
    rintro s' v' o' w' x' ⟨h1, h2, -, h3, h4⟩
    rcases undergoes.mp h3 with ⟨rfl, rfl⟩ | ⟨-, h3⟩
    · rcases acts.mp h2 with ⟨-, h2⟩ | ⟨h2, -⟩
      · exact ⟨rfl, rfl, h2, saidBy_unique (said hv h1.1.1) hw, saidBy_unique (said hu h4) hx⟩
      · exact absurd h2 hvu
    · exact absurd h3 (isVerb h4 ho)
  have nominal : ∀ {s' A}, Exactly.Named ck c tokens tg t s' A → Exactly.AsNominal c tokens tg t s' := by
    rintro s' A ⟨tag, h1, h2, -⟩
    exact ⟨tag, h2, written_taken h1⟩
  have has : ∀ {s'}, Member t s s' → Exactly.AsNominal c tokens tg t s' → Exactly.HasClause ck c tokens tg t s' v u w x := fun h1 h2 =>
    ⟨⟨predicate hv hw, hto⟩, acts.mpr (.inl ⟨rfl, h1⟩), h2, undergoes.mpr (.inl ⟨rfl, rfl⟩), (said_written F.fixed hu).mpr hx⟩
  have actsIn : ∀ {s' y}, Exactly.ActsIn ck c tokens tg t s' u y → Member t a y := by
    rintro s' y (h1 | ⟨-, h1⟩)
    · rcases acts.mp h1 with ⟨e, -⟩ | ⟨-, h1⟩
      · exact absurd e.symm hvu
      · exact h1
    · exact absurd (acts.mpr (.inr ⟨rfl, .inl rfl⟩)) (h1 a)
  have under : ∀ {y}, Exactly.Undergoes ck c tokens tg t u y → Member t o y := by
    intro y h
    rcases undergoes.mp h with ⟨e, -⟩ | ⟨-, h⟩
    · exact absurd e.symm hvu
    · exact h
  have notMain : ∀ {w'}, ¬ Exactly.MainClause ck c tokens tg t u w' := by
    intro w' h2
    obtain ⟨tag, h3, h4⟩ := hs s (.inl rfl)
    obtain ⟨_, _, _, _, _, L, G, -⟩ := H.linked
    obtain ⟨_, _, -, R⟩ := L.ends T F.subj (by decide)
    obtain ⟨l, _, _, h5, -⟩ := L.participleOf G R
    exact h2.2 _ _ _ _ (has (.inl rfl) ⟨tag, h3, .same h5 h4 fun k => absurd k F.fixed⟩)
  rw [C130_exact H T]
  constructor
  · intro h
    cases h with
    | clauseIntr k _ _ k1 =>
      obtain ⟨rfl, rfl, -⟩ := clause k
      exact absurd (undergoes.mpr (.inr ⟨rfl, .inl rfl⟩)) (k1 o)
    | clauseTrans k k1 _ k2 k3 k4 k5 =>
      obtain ⟨rfl, rfl, m, rfl, rfl⟩ := clause k
      exact .inl ⟨_, _, _, _, _, _, m, actsIn k1, under k2, (named hs m).mp k3, (named ha (actsIn k1)).mp k4,
        (named ho (under k2)).mp k5, rfl⟩
    | clauseProp _ _ k =>
      obtain ⟨y, k, -⟩ := k
      exact absurd k (none (by decide))
    | intr k1 k2 k3 =>
      rcases acts.mp k2 with ⟨rfl, -⟩ | ⟨rfl, -⟩
      · exact absurd (undergoes.mpr (.inl ⟨rfl, rfl⟩)) (k3 u)
      · exact absurd (undergoes.mpr (.inr ⟨rfl, .inl rfl⟩)) (k3 o)
    | trans k1 k2 k3 k4 k5 =>
      rcases undergoes.mp k3 with ⟨rfl, rfl⟩ | ⟨rfl, -⟩
      · exact absurd k5 (verbNotNamed hu)
      · exact absurd k1 notMain
    | recip _ _ k =>
      obtain ⟨y, k, -⟩ := k
      exact absurd k (none (by decide))
    | passive k1 k2 k3 k4 k5 k6 =>
      rcases undergoes.mp k3 with ⟨rfl, rfl⟩ | ⟨rfl, m⟩
      · exact absurd k6 (verbNotNamed hu)
      · rw [saidBy_unique (said hu k1.1) hx] at k2
        refine .inr ⟨k2, ?_⟩
        rcases k5 with ⟨-, k5⟩ | ⟨pol, rfl, -, k5⟩
        · exact absurd (acts.mpr (.inr ⟨rfl, .inl rfl⟩)) (k5 a)
        · refine ⟨_, _, pol, m, (named ho m).mp k6, ?_, ?_⟩
          · rw [k5]
            simp [acts, hvu.symm]
          · rw [participleOf_unique k4 hq]
            rfl
    | indirect _ _ k =>
      obtain ⟨y, k, -⟩ := k
      exact absurd k (none (by decide))
    | copula k | copulaActive k =>
      obtain ⟨_, _, _, k, -⟩ := k
      exact absurd k (none (by decide))
    | participle k => exact absurd k (hc _ _)
    | adjective k | adjectiveActive k =>
      obtain ⟨_, _, _, ⟨k, -⟩ | ⟨k, -⟩⟩ := k <;> exact absurd k (hc _ _)
  · rintro (⟨s', a', o', A, B, C, m1, m2, m3, n1, n2, n3, rfl⟩ | ⟨hx', o', C, pol, m, n, hp, rfl⟩)
    · have n1 := (named hs m1).mpr n1
      exact .clauseTrans (has m1 (nominal n1)) (.inl (acts.mpr (.inr ⟨rfl, m2⟩))) (predicate hu hx) (undergoes.mpr (.inr ⟨rfl, m3⟩)) n1
        ((named ha m2).mpr n2) ((named ho m3).mpr n3)
    · exact .passive (l := [pol]) (predicate hu hx) hx' (undergoes.mpr (.inr ⟨rfl, m⟩)) hq
        (.inr ⟨pol, rfl, ⟨a, acts.mpr (.inr ⟨rfl, .inl rfl⟩)⟩, by rw [hp]; simp [acts, hvu.symm]⟩) ((named ho m).mpr n)

/-! ### Example -/

/-- "Foxes want him or foxes to bake no formats." -/
def wantOthers : Demo where
  tokens := [c!"Foxes", c!"want", c!"him", c!"or", c!"foxes", c!"to", c!"bake", c!"no", c!"formats"]
  tags := [.NOUN, .VERB, .PRON, .CONJ, .NOUN, .PREP, .VERB, .DET, .NOUN]
  deps := [.SUBJ, .ROOT, .SUBJ, .NODEP, .OR, .PART, .OBJ, .NEG, .OBJ]
  trans := [(0, 1, .LEFT), (2, 4, .RIGHT), (5, 6, .LEFT), (4, 6, .REDUCE), (2, 6, .LEFT), (1, 6, .RIGHT), (7, 8, .LEFT), (6, 8, .RIGHT)]
  root := 1
  arcs := [(.SUBJ, 1, 0), (.OR, 2, 4), (.PART, 6, 5), (.SUBJ, 6, 2), (.OBJ, 1, 6), (.NEG, 8, 7), (.OBJ, 6, 8)]

theorem wantOthers_parsed : wantOthers.Parsed := by decide +kernel

theorem wantOthers_tuples : ∀ ck, (wantOthers.tuples ck).map (fun x => x.flatten true) =
    [c!"NTOTN(fox, NOT want, he, bake, format)", c!"NTNTN(fox, NOT want, fox, bake, format)", c!"NCL(format, NOT be, baked)"] := by
  decide +kernel

theorem Demo.wanting {d : Demo} (h : d.Parsed) {v s u a o : Nat} (k : (.SUBJ, v, s) ∈ d.arcs ∧ (.OBJ, v, u) ∈ d.arcs ∧
    (.SUBJ, u, a) ∈ d.arcs ∧ (.OBJ, u, o) ∈ d.arcs ∧
    (∀ b ∈ d.arcs, b.1 ∉ functional → b.2.1 = v → (b.1, b.2.2) = (.SUBJ, s) ∨ (b.1, b.2.2) = (.OBJ, u)) ∧
    (∀ b ∈ d.arcs, b.1 ∉ functional → b.2.1 = u → (b.1, b.2.2) = (.SUBJ, a) ∨ (b.1, b.2.2) = (.OBJ, o)) ∧
    ∀ b ∈ d.arcs, b.1 ∉ functional → b.2.1 ≠ v → b.2.1 ≠ u → b.1 = .AND ∨ b.1 = .OR) : Wanting d.tree v s u a o := by
  obtain ⟨k1, k2, k3, k4, k5, k6, k7⟩ := k
  refine ⟨(Demo.mem h _ _ _).mpr k1, (Demo.mem h _ _ _).mpr k2, (Demo.mem h _ _ _).mpr k3, (Demo.mem h _ _ _).mpr k4,
    fun l x hx hl => ?_, fun l x hx hl => ?_, fun q l x hx hq hq' hl => ?_⟩
  · exact k5 _ ((Demo.mem h _ _ _).mp hx) hl rfl
  · exact k6 _ ((Demo.mem h _ _ _).mp hx) hl rfl
  · exact k7 _ ((Demo.mem h _ _ _).mp hx) hl hq hq'

example (args : List Argument) : STuple.mk args ∈ wantOthers.tuples ck ↔
    (∃ s' a' o' A B C, Member wantOthers.tree 0 s' ∧ Member wantOthers.tree 2 a' ∧ Member wantOthers.tree 8 o' ∧
      Noun demoLogic wantOthers.tokens wantOthers.tags s' A ∧ Noun demoLogic wantOthers.tokens wantOthers.tags a' B ∧
      Noun demoLogic wantOthers.tokens wantOthers.tags o' C ∧
      args = [A, ⟨c!"want", c!"T", affirmed [positive wantOthers.tree s', positive wantOthers.tree 1, positive wantOthers.tree a',
        positive wantOthers.tree 6, positive wantOthers.tree o']⟩, B, ⟨c!"bake", c!"T", true⟩, C]) ∨
    (c!"bake" ∉ [c!"have", c!"get"] ∧ ∃ o' C pol, Member wantOthers.tree 8 o' ∧ Noun demoLogic wantOthers.tokens wantOthers.tags o' C ∧
      (pol = true ↔ ∃ a', Member wantOthers.tree 2 a' ∧ positive wantOthers.tree a' = true) ∧
      args = [C, ⟨c!"be", c!"C", affirmed [pol, positive wantOthers.tree 6, positive wantOthers.tree o']⟩, ⟨c!"baked", c!"L", true⟩]) := by
  have h := wantOthers_parsed
  have l1 : LemmaOf demoLogic wantOthers.tokens wantOthers.tags 1 c!"want" :=
    ⟨c!"want", .VERB, none, ⟨c!"want", rfl, by decide +kernel⟩, rfl, by decide +kernel⟩
  have l2 : LemmaOf demoLogic wantOthers.tokens wantOthers.tags 2 c!"him" :=
    ⟨c!"him", .PRON, none, ⟨c!"him", rfl, by decide +kernel⟩, rfl, by decide +kernel⟩
  have l6 : LemmaOf demoLogic wantOthers.tokens wantOthers.tags 6 c!"bake" :=
    ⟨c!"bake", .VERB, none, ⟨c!"bake", rfl, by decide +kernel⟩, rfl, by decide +kernel⟩
  have l8 : LemmaOf demoLogic wantOthers.tokens wantOthers.tags 8 c!"format" :=
    ⟨c!"formats", .NOUN, some .PLURAL, ⟨c!"formats", rfl, by decide +kernel⟩, rfl, by decide +kernel⟩
  exact C143_clause (v := 1) (s := 0) (u := 6) (a := 2) (o := 8) (Demo.reports h) (Demo.neat h (by decide)) (Demo.wanting h ⟨by decide, by decide, by decide, by decide, by decide, by decide, by decide⟩)
    rfl rfl (by decide) (Demo.noTo h (by decide)) ⟨_, [], rfl, l1, Demo.noParts h (by decide), rfl⟩
    ⟨_, [], rfl, l6, Demo.noParts' h (by decide), rfl⟩ ⟨_, c!"baked", [], l6, by decide +kernel, Demo.noParts' h (by decide), rfl⟩
    (Demo.nouns h (by decide)) (Demo.nouns h (by decide)) (Demo.nouns h (by decide)) (by decide)
    (fun l hl => by rw [LemmaOf_unique hl l2]; decide) (fun l hl => by rw [LemmaOf_unique hl l8]; decide) args

end Props
