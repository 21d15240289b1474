import Verif.Lemmas.Described
import Verif.Lemmas.Intending
import Verif.Props.Wanting

/-! C143: sentences with a clause without subject as object report exactly what they say. -/

namespace Props
open Py Model Spec

variable {ck : Bool} {c : Logic} {tokens : List Str} {tg : List Tag} {t : Tree Dep Nat} {ts : List STuple} {v s u o : Nat}
  {w x q : Str}

/-- **C143.** "People want to bake cakes": a sentence whose object is a clause of verb and object reports the whole of it for each of
the coordinated nouns, each of the people acting for themselves, and the passive form of the clause, which nobody acts in. -/
theorem C143_own (H : Reports ck c tokens tg t ts) (T : NeatParse t) (F : Intending t v s u o)
    (hv : tg[v]? = some .VERB) (hu : tg[u]? = some .VERB) (hvu : v ≠ u) (hto : ¬ InfTo c.lower tokens (t.children v) v)
    (hw : SaidBy c tokens tg t v w) (hx : SaidBy c tokens tg t u x) (hq : ParticipleOf c tokens tg t u q) (hs : Nouns t tg s)
    (ho : Nouns t tg o) (hxr : x ∉ reflexives)
    (hor : ∀ l, LemmaOf c tokens tg o l → l ∉ reflexives) (args : List Argument) :
    STuple.mk args ∈ ts ↔
      (∃ s' o' A C, Member t s s' ∧ Member t o o' ∧ Noun c tokens tg s' A ∧ Noun c tokens tg o' C ∧
        args = [A, ⟨w, c!"T", affirmed [positive t s', positive t v, positive t s', positive t u, positive t o']⟩, A,
          ⟨x, c!"T", true⟩, C]) ∨
      (x ∉ [c!"have", c!"get"] ∧ ∃ o' C, Member t o o' ∧ Noun c tokens tg o' C ∧
        args = [C, ⟨c!"be", c!"C", affirmed [positive t u, positive t o']⟩, ⟨q, c!"L", true⟩]) := by
  have hc := F.noCpl
  have notVerb : ∀ {r i}, Nouns t tg r → Member t r i → tg[i]? ≠ some .VERB := by
    intro r i h1 h2 h3
    obtain ⟨tag, h4, h5⟩ := h1 _ h2
    rw [h3] at h5
    cases h5
    exact absurd h4 (by decide)
  have hvo : v ≠ o := by
    rintro rfl
    exact notVerb ho (.inl rfl) hv
  have said : ∀ {i tag w'}, tg[i]? = some .VERB → Exactly.Written ck c tokens tg t i tag w' → SaidBy c tokens tg t i w' := by
    intro i tag w' h1 h2
    have : tag = .VERB := (taken_fixed F.fixed h1 (written_taken h2)).1
    subst this
    exact (said_written F.fixed h1).mp h2
  have selfU : ¬ Exactly.Self ck c tokens tg t u := by
    rintro ⟨tag, w', h1, h2⟩
    rw [saidBy_unique (said hu h2) hx] at h1
    exact hxr h1
  have selfO : ¬ Exactly.Self ck c tokens tg t o := not_self F.fixed hc (ho o (.inl rfl)) hor
  have acts : ∀ {v' y}, Exactly.Acts ck c tokens tg t v' y ↔ v' = v ∧ Member t s y := F.acts hvu hvo
  have undergoes : ∀ {v' y}, Exactly.Undergoes ck c tokens tg t v' y ↔ v' = v ∧ y = u ∨ v' = u ∧ Member t o y := F.undergoes selfU selfO
  have none : ∀ {d : Dep}, d ∈ [Dep.PROP, .IPROP, .EXIST, .IOBJ] → ∀ {p y}, (d, y) ∉ t.children p := by
    intro d hd p y
    simp only [List.mem_cons, List.not_mem_nil, or_false] at hd
    rcases hd with rfl | rfl | rfl | rfl <;> exact F.none (by decide) (by decide) (by decide)
  have predicate : ∀ {i w'}, tg[i]? = some .VERB → SaidBy c tokens tg t i w' → Exactly.Predicate ck c tokens tg t i w' := fun h1 h2 =>
    ⟨(said_written F.fixed h1).mpr h2, fun y => none (by decide), fun y => none (by decide), fun y => none (by decide)⟩
  have named : ∀ {r y}, Nouns t tg r → Member t r y → ∀ {A}, Exactly.Named ck c tokens tg t y A ↔ Noun c tokens tg y A :=
    fun h1 h2 => noun_named F.fixed hc (h1 _ h2)
  have verbNotNamed : ∀ {i A}, tg[i]? = some .VERB → ¬ Exactly.Named ck c tokens tg t i A := by
    rintro i A h1 ⟨tag, h2, h3, -⟩
    have : tag = .VERB := (taken_fixed F.fixed h1 (written_taken h2)).1
    subst this
    exact absurd h3 (by decide)
  have isVerb : ∀ {i w'}, Exactly.Written ck c tokens tg t i .VERB w' → ∀ {r}, Nouns t tg r → ¬ Member t r i := by
    intro i w' h1 r h2 h3
    obtain ⟨tag, h4, h5⟩ := h2 _ h3
    have : Tag.VERB = tag := (taken_fixed F.fixed h5 (written_taken h1)).1
    subst this
    exact absurd h4 (by decide)
  have clause : ∀ {s' v' o' w' x'}, Exactly.HasClause ck c tokens tg t s' v' o' w' x' → v' = v ∧ o' = u ∧ Member t s s' ∧ w' = w ∧ x' = x := by
    rintro s' v' o' w' x' ⟨h1, h2, -, h3, h4⟩
    rcases undergoes.mp h3 with ⟨rfl, rfl⟩ | ⟨-, h3⟩
    · exact ⟨rfl, rfl, (acts.mp h2).2, saidBy_unique (said hv h1.1.1) hw, saidBy_unique (said hu h4) hx⟩
    · exact absurd h3 (isVerb h4 ho)
  have nominal : ∀ {s' A}, Exactly.Named ck c tokens tg t s' A → Exactly.AsNominal c tokens tg t s' := by
    rintro s' A ⟨tag, h1, h2, -⟩
    exact ⟨tag, h2, written_taken h1⟩
  have has : ∀ {s'}, Member t s s' → Exactly.AsNominal c tokens tg t s' → Exactly.HasClause ck c tokens tg t s' v u w x := fun h1 h2 =>
    ⟨⟨predicate hv hw, hto⟩, acts.mpr ⟨rfl, h1⟩, h2, undergoes.mpr (.inl ⟨rfl, rfl⟩), (said_written F.fixed hu).mpr hx⟩
  have nobody : ∀ {y}, ¬ Exactly.Acts ck c tokens tg t u y := fun h => hvu (acts.mp h).1.symm
  have actsIn : ∀ {s' y}, Exactly.ActsIn ck c tokens tg t s' u y → y = s' := by
    rintro s' y (h1 | ⟨h1, -⟩)
    · exact absurd h1 nobody
    · exact h1
  have under : ∀ {y}, Exactly.Undergoes ck c tokens tg t u y → Member t o y := by
    intro y h
    rcases undergoes.mp h with ⟨e, -⟩ | ⟨-, h⟩
    · exact absurd e.symm hvu
    · exact h
  have notMain : ∀ {w'}, ¬ Exactly.MainClause ck c tokens tg t u w' := by
    intro w' h2
    obtain ⟨tag, h3, h4⟩ := hs s (.inl rfl)
    obtain ⟨_, _, _, _, _, L, G, -⟩ := H.linked
    obtain ⟨_, _, -, R⟩ := L.ends T F.subj (by decide)
    obtain ⟨l, _, _, h5, -⟩ := L.participleOf G R
    exact h2.2 _ _ _ _ (has (.inl rfl) ⟨tag, h3, .same h5 h4 fun k => absurd k F.fixed⟩)
  rw [C130_exact H T]
  constructor
  · intro h
    cases h with
    | clauseIntr k _ _ k1 =>
      obtain ⟨rfl, rfl, -⟩ := clause k
      exact absurd (undergoes.mpr (.inr ⟨rfl, .inl rfl⟩)) (k1 o)
    | clauseTrans k k1 _ k2 k3 k4 k5 =>
      obtain ⟨rfl, rfl, m, rfl, rfl⟩ := clause k
      cases actsIn k1
      refine .inl ⟨_, _, _, _, m, under k2, (named hs m).mp k3, (named ho (under k2)).mp k5, ?_⟩
      rw [noun_unique ((named hs m).mp k4) ((named hs m).mp k3)]
    | clauseProp _ _ k =>
      obtain ⟨y, k, -⟩ := k
      exact absurd k (none (by decide))
    | intr k1 k2 k3 =>
      obtain ⟨rfl, -⟩ := acts.mp k2
      exact absurd (undergoes.mpr (.inl ⟨rfl, rfl⟩)) (k3 u)
    | trans k1 k2 k3 k4 k5 =>
      rcases undergoes.mp k3 with ⟨rfl, rfl⟩ | ⟨rfl, -⟩
      · exact absurd k5 (verbNotNamed hu)
      · exact absurd k1 notMain
    | recip _ _ k =>
      obtain ⟨y, k, -⟩ := k
      exact absurd k (none (by decide))
    | passive k1 k2 k3 k4 k5 k6 =>
      rcases undergoes.mp k3 with ⟨rfl, rfl⟩ | ⟨rfl, m⟩
      · exact absurd k6 (verbNotNamed hu)
      · rw [saidBy_unique (said hu k1.1) hx] at k2
        refine .inr ⟨k2, ?_⟩
        rcases k5 with ⟨rfl, -⟩ | ⟨pol, -, ⟨y, k5⟩, -⟩
        · refine ⟨_, _, m, (named ho m).mp k6, ?_⟩
          rw [participleOf_unique k4 hq]
          rfl
        · exact absurd k5 nobody
    | indirect _ _ k =>
      obtain ⟨y, k, -⟩ := k
      exact absurd k (none (by decide))
    | copula k | copulaActive k =>
      obtain ⟨_, _, _, k, -⟩ := k
      exact absurd k (none (by decide))
    | participle k => exact absurd k (hc _ _)
    | adjective k | adjectiveActive k =>
      obtain ⟨_, _, _, ⟨k, -⟩ | ⟨k, -⟩⟩ := k <;> exact absurd k (hc _ _)
  · rintro (⟨s', o', A, C, m1, m3, n1, n3, rfl⟩ | ⟨hx', o', C, m, n, rfl⟩)
    · have n1 := (named hs m1).mpr n1
      exact .clauseTrans (has m1 (nominal n1)) (.inr ⟨rfl, fun _ => nobody⟩) (predicate hu hx) (undergoes.mpr (.inr ⟨rfl, m3⟩)) n1 n1
        ((named ho m3).mpr n3)
    · exact .passive (l := []) (predicate hu hx) hx' (undergoes.mpr (.inr ⟨rfl, m⟩)) hq (.inl ⟨rfl, fun _ => nobody⟩) ((named ho m).mpr n)

/-! ### Examples -/

/-- "No foxes want to bake formats." -/
def wantNone : Demo where
  tokens := [c!"No", c!"foxes", c!"want", c!"to", c!"bake", c!"formats"]
  tags := [.DET, .NOUN, .VERB, .PREP, .VERB, .NOUN]
  deps := [.NEG, .SUBJ, .ROOT, .PART, .OBJ, .OBJ]
  trans := [(0, 1, .LEFT), (1, 2, .LEFT), (3, 4, .LEFT), (2, 4, .RIGHT), (4, 5, .RIGHT)]
  root := 2
  arcs := [(.NEG, 1, 0), (.SUBJ, 2, 1), (.PART, 4, 3), (.OBJ, 2, 4), (.OBJ, 4, 5)]

theorem wantNone_parsed : wantNone.Parsed := by decide +kernel

theorem wantNone_tuples : ∀ ck, (wantNone.tuples ck).map (fun x => x.flatten true) =
    [c!"NTNTN(fox, want, fox, bake, format)", c!"NCL(format, be, baked)"] := by
  decide +kernel

theorem Demo.intending {d : Demo} (h : d.Parsed) {v s u o : Nat} (k : (.SUBJ, v, s) ∈ d.arcs ∧ (.OBJ, v, u) ∈ d.arcs ∧
    (.OBJ, u, o) ∈ d.arcs ∧
    (∀ b ∈ d.arcs, b.1 ∉ functional → b.2.1 = v → (b.1, b.2.2) = (.SUBJ, s) ∨ (b.1, b.2.2) = (.OBJ, u)) ∧
    (∀ b ∈ d.arcs, b.1 ∉ functional → b.2.1 = u → (b.1, b.2.2) = (.OBJ, o)) ∧
    ∀ b ∈ d.arcs, b.1 ∉ functional → b.2.1 ≠ v → b.2.1 ≠ u → b.1 = .AND ∨ b.1 = .OR) : Intending d.tree v s u o := by
  obtain ⟨k1, k2, k4, k5, k6, k7⟩ := k
  refine ⟨(Demo.mem h _ _ _).mpr k1, (Demo.mem h _ _ _).mpr k2, (Demo.mem h _ _ _).mpr k4,
    fun l x hx hl => ?_, fun l x hx hl => ?_, fun q l x hx hq hq' hl => ?_⟩
  · exact k5 _ ((Demo.mem h _ _ _).mp hx) hl rfl
  · exact k6 _ ((Demo.mem h _ _ _).mp hx) hl rfl
  · exact k7 _ ((Demo.mem h _ _ _).mp hx) hl hq hq'

theorem wantNone_intending : Intending wantNone.tree 2 1 4 5 :=
  Demo.intending wantNone_parsed ⟨by decide, by decide, by decide, by decide, by decide, by decide⟩

example (args : List Argument) : STuple.mk args ∈ wantNone.tuples ck ↔
    (∃ s' o' A C, Member wantNone.tree 1 s' ∧ Member wantNone.tree 5 o' ∧
      Noun demoLogic wantNone.tokens wantNone.tags s' A ∧ Noun demoLogic wantNone.tokens wantNone.tags o' C ∧
      args = [A, ⟨c!"want", c!"T", affirmed [positive wantNone.tree s', positive wantNone.tree 2, positive wantNone.tree s',
        positive wantNone.tree 4, positive wantNone.tree o']⟩, A, ⟨c!"bake", c!"T", true⟩, C]) ∨
    (c!"bake" ∉ [c!"have", c!"get"] ∧ ∃ o' C, Member wantNone.tree 5 o' ∧ Noun demoLogic wantNone.tokens wantNone.tags o' C ∧
      args = [C, ⟨c!"be", c!"C", affirmed [positive wantNone.tree 4, positive wantNone.tree o']⟩, ⟨c!"baked", c!"L", true⟩]) := by
  have h := wantNone_parsed
  have l2 : LemmaOf demoLogic wantNone.tokens wantNone.tags 2 c!"want" :=
    ⟨c!"want", .VERB, none, ⟨c!"want", rfl, by decide +kernel⟩, rfl, by decide +kernel⟩
  have l4 : LemmaOf demoLogic wantNone.tokens wantNone.tags 4 c!"bake" :=
    ⟨c!"bake", .VERB, none, ⟨c!"bake", rfl, by decide +kernel⟩, rfl, by decide +kernel⟩
  have l5 : LemmaOf demoLogic wantNone.tokens wantNone.tags 5 c!"format" :=
    ⟨c!"formats", .NOUN, some .PLURAL, ⟨c!"formats", rfl, by decide +kernel⟩, rfl, by decide +kernel⟩
  exact C143_own (v := 2) (s := 1) (u := 4) (o := 5) (Demo.reports h) (Demo.neat h (by decide)) wantNone_intending
    rfl rfl (by decide) (Demo.noTo h (by decide)) ⟨_, [], rfl, l2, Demo.noParts h (by decide), rfl⟩
    ⟨_, [], rfl, l4, Demo.noParts' h (by decide), rfl⟩ ⟨_, c!"baked", [], l4, by decide +kernel, Demo.noParts' h (by decide), rfl⟩
    (Demo.nouns h (by decide)) (Demo.nouns h (by decide)) (by decide)
    (fun l hl => by rw [LemmaOf_unique hl l5]; decide) args

/-! ### C144: whether the subject of the main clause is negated -/

/-- **C144**, refuted. A statement that one of those who act wants something is negative when an odd number of subject, verb, clause and
object are negated. "No foxes want to bake formats" reports that foxes want to bake formats. -/
theorem C144_no_subject_false : ¬ ∀ (d : Demo) (v s u o : Nat), d.Parsed → NeatParse d.tree → Intending d.tree v s u o →
    o ≠ s → ∀ x ∈ d.tuples false, x.args.length = 5 → (∀ y, Member d.tree s y → y = s) → (∀ y, Member d.tree o y → y = o) →
      ∀ a ∈ x.args[1]?, a.isAff = affirmed [positive d.tree s, positive d.tree v, positive d.tree u, positive d.tree o] := by
  intro h
  have p := wantNone_parsed
  have key : ∃ x ∈ wantNone.tuples false, x.args.length = 5 ∧ ∃ a ∈ x.args[1]?, a.isAff = true := by decide +kernel
  obtain ⟨x, h1, h2, a, h3, h4⟩ := key
  have := h wantNone 2 1 4 5 p (Demo.neat p (by decide)) wantNone_intending (by decide) x h1 h2
    (by intro y hy; rw [Demo.member p] at hy; revert hy; simp [wantNone])
    (by intro y hy; rw [Demo.member p] at hy; revert hy; simp [wantNone]) a h3
  rw [h4] at this
  exact absurd this (by decide +kernel)

/-- **C144**, what holds: the statement is negative when an odd number of verb, clause and object are negated; the subject makes no
difference. The hypotheses are those of `C143_own`, met by `wantNone` above. -/
theorem C144_no_subject_partial (H : Reports ck c tokens tg t ts) (T : NeatParse t) (F : Intending t v s u o)
    (hv : tg[v]? = some .VERB) (hu : tg[u]? = some .VERB) (hvu : v ≠ u) (hto : ¬ InfTo c.lower tokens (t.children v) v)
    (hw : SaidBy c tokens tg t v w) (hx : SaidBy c tokens tg t u x) (hq : ParticipleOf c tokens tg t u q) (hs : Nouns t tg s)
    (ho : Nouns t tg o) (hxr : x ∉ reflexives) (hor : ∀ l, LemmaOf c tokens tg o l → l ∉ reflexives) (A B C D E : Argument) :
    STuple.mk [A, B, C, D, E] ∈ ts ↔ ∃ s' o', Member t s s' ∧ Member t o o' ∧ Noun c tokens tg s' A ∧ Noun c tokens tg o' E ∧
      B = ⟨w, c!"T", affirmed [positive t v, positive t u, positive t o']⟩ ∧ C = A ∧ D = ⟨x, c!"T", true⟩ := by
  have twice : ∀ a b d e : Bool, affirmed [a, b, a, d, e] = affirmed [b, d, e] := by decide
  rw [C143_own H T F hv hu hvu hto hw hx hq hs ho hxr hor]
  constructor
  · rintro (⟨s', o', A', C', m1, m2, n1, n2, e⟩ | ⟨-, o', C', -, -, e⟩)
    · simp only [List.cons.injEq, and_true] at e
      obtain ⟨rfl, rfl, rfl, rfl, rfl⟩ := e
      exact ⟨s', o', m1, m2, n1, n2, by rw [twice], rfl, rfl⟩
    · exact absurd (congrArg List.length e) (by simp)
  · rintro ⟨s', o', m1, m2, n1, n2, rfl, rfl, rfl⟩
    exact .inl ⟨s', o', _, _, m1, m2, n1, n2, by rw [twice]⟩

end Props
