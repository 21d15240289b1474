import Verif.Lemmas.Aiming
import Verif.Props.Intending

/-! C143: sentences with a clause of a verb alone as object report exactly what they say. -/

namespace Props
open Py Model Spec

variable {ck : Bool} {c : Logic} {tokens : List Str} {tg : List Tag} {t : Tree Dep Nat} {ts : List STuple} {v s u : Nat}
  {w x : Str}

/-- **C143.** "People want to sing": a sentence whose object is a clause of a verb alone reports it for each of the coordinated nouns,
each of the people acting for themselves, and nothing else; it reports nothing at all if the verb needs an object. -/
theorem C143_alone (H : Reports ck c tokens tg t ts) (T : NeatParse t) (F : Aiming t v s u)
    (hv : tg[v]? = some .VERB) (hu : tg[u]? = some .VERB) (hvu : v ≠ u) (hto : ¬ InfTo c.lower tokens (t.children v) v)
    (hw : SaidBy c tokens tg t v w) (hx : SaidBy c tokens tg t u x) (hs : Nouns t tg s) (hxr : x ∉ reflexives)
    (args : List Argument) :
    STuple.mk args ∈ ts ↔ x ∉ [c!"have", c!"get", c!"be", c!"do"] ∧ ∃ s' A, Member t s s' ∧ Noun c tokens tg s' A ∧
      args = [A, ⟨w, c!"T", affirmed [positive t s', positive t v, positive t s', positive t u]⟩, A, ⟨x, c!"I", true⟩] := by
  have hc := F.noCpl
  have said : ∀ {i tag w'}, tg[i]? = some .VERB → Exactly.Written ck c tokens tg t i tag w' → SaidBy c tokens tg t i w' := by
    intro i tag w' h1 h2
    have : tag = .VERB := (taken_fixed F.fixed h1 (written_taken h2)).1
    subst this
    exact (said_written F.fixed h1).mp h2
  have selfU : ¬ Exactly.Self ck c tokens tg t u := by
    rintro ⟨tag, w', h1, h2⟩
    rw [saidBy_unique (said hu h2) hx] at h1
    exact hxr h1
  have acts : ∀ {v' y}, Exactly.Acts ck c tokens tg t v' y ↔ v' = v ∧ Member t s y := F.acts hvu
  have undergoes : ∀ {v' y}, Exactly.Undergoes ck c tokens tg t v' y ↔ v' = v ∧ y = u := F.undergoes selfU
  have none : ∀ {d : Dep}, d ∈ [Dep.PROP, .IPROP, .EXIST, .IOBJ] → ∀ {p y}, (d, y) ∉ t.children p := by
    intro d hd p y
    simp only [List.mem_cons, List.not_mem_nil, or_false] at hd
    rcases hd with rfl | rfl | rfl | rfl <;> exact F.none (by decide) (by decide) (by decide)
  have predicate : ∀ {i w'}, tg[i]? = some .VERB → SaidBy c tokens tg t i w' → Exactly.Predicate ck c tokens tg t i w' := fun h1 h2 =>
    ⟨(said_written F.fixed h1).mpr h2, fun y => none (by decide), fun y => none (by decide), fun y => none (by decide)⟩
  have named : ∀ {y}, Member t s y → ∀ {A}, Exactly.Named ck c tokens tg t y A ↔ Noun c tokens tg y A :=
    fun h => noun_named F.fixed hc (hs _ h)
  have verbNotNamed : ∀ {A}, ¬ Exactly.Named ck c tokens tg t u A := by
    rintro A ⟨tag, h2, h3, -⟩
    have : tag = .VERB := (taken_fixed F.fixed hu (written_taken h2)).1
    subst this
    exact absurd h3 (by decide)
  have clause : ∀ {s' v' o' w' x'}, Exactly.HasClause ck c tokens tg t s' v' o' w' x' → v' = v ∧ o' = u ∧ Member t s s' ∧ w' = w ∧ x' = x := by
    rintro s' v' o' w' x' ⟨h1, h2, -, h3, h4⟩
    obtain ⟨rfl, rfl⟩ := undergoes.mp h3
    exact ⟨rfl, rfl, (acts.mp h2).2, saidBy_unique (said hv h1.1.1) hw, saidBy_unique (said hu h4) hx⟩
  have nobody : ∀ {y}, ¬ Exactly.Acts ck c tokens tg t u y := fun h => hvu (acts.mp h).1.symm
  have nothing : ∀ {y}, ¬ Exactly.Undergoes ck c tokens tg t u y := fun h => hvu (undergoes.mp h).1.symm
  rw [C130_exact H T]
  constructor
  · intro h
    cases h with
    | clauseIntr k k1 _ _ k3 k4 k5 =>
      obtain ⟨rfl, rfl, m, rfl, rfl⟩ := clause k
      rcases k1 with k1 | ⟨rfl, -⟩
      · exact absurd k1 nobody
      · refine ⟨k3, _, _, m, (named m).mp k4, ?_⟩
        rw [noun_unique ((named m).mp k5) ((named m).mp k4)]
    | clauseTrans k _ _ k2 =>
      obtain ⟨rfl, rfl, -⟩ := clause k
      exact absurd k2 nothing
    | clauseProp _ _ k =>
      obtain ⟨y, k, -⟩ := k
      exact absurd k (none (by decide))
    | intr k1 k2 k3 =>
      obtain ⟨rfl, -⟩ := acts.mp k2
      exact absurd (undergoes.mpr ⟨rfl, rfl⟩) (k3 u)
    | trans k1 k2 k3 k4 k5 =>
      obtain ⟨rfl, rfl⟩ := undergoes.mp k3
      exact absurd k5 verbNotNamed
    | recip _ _ k =>
      obtain ⟨y, k, -⟩ := k
      exact absurd k (none (by decide))
    | passive k1 k2 k3 k4 k5 k6 =>
      obtain ⟨rfl, rfl⟩ := undergoes.mp k3
      exact absurd k6 verbNotNamed
    | indirect _ _ k =>
      obtain ⟨y, k, -⟩ := k
      exact absurd k (none (by decide))
    | copula k | copulaActive k =>
      obtain ⟨_, _, _, k, -⟩ := k
      exact absurd k (none (by decide))
    | participle k => exact absurd k (hc _ _)
    | adjective k | adjectiveActive k =>
      obtain ⟨_, _, _, ⟨k, -⟩ | ⟨k, -⟩⟩ := k <;> exact absurd k (hc _ _)
  · rintro ⟨hx', s', A, m, n, rfl⟩
    have n := (named m).mpr n
    obtain ⟨tag, n1, n2, -⟩ := id n
    exact .clauseIntr ⟨⟨predicate hv hw, hto⟩, acts.mpr ⟨rfl, m⟩, ⟨tag, n2, written_taken n1⟩, undergoes.mpr ⟨rfl, rfl⟩,
      (said_written F.fixed hu).mpr hx⟩ (.inr ⟨rfl, fun _ => nobody⟩) (predicate hu hx) (fun _ => nothing) hx' n n

/-! ### Example -/

/-- "Foxes and formats want not to bake." -/
def wantNot : Demo where
  tokens := [c!"Foxes", c!"and", c!"formats", c!"want", c!"not", c!"to", c!"bake"]
  tags := [.NOUN, .CONJ, .NOUN, .VERB, .ADV, .PREP, .VERB]
  deps := [.SUBJ, .NODEP, .AND, .ROOT, .NEG, .PART, .OBJ]
  trans := [(0, 2, .RIGHT), (2, 3, .REDUCE), (0, 3, .LEFT), (5, 6, .LEFT), (4, 6, .LEFT), (3, 6, .RIGHT)]
  root := 3
  arcs := [(.AND, 0, 2), (.SUBJ, 3, 0), (.PART, 6, 5), (.NEG, 6, 4), (.OBJ, 3, 6)]

theorem wantNot_parsed : wantNot.Parsed := by decide +kernel

theorem wantNot_tuples : ∀ ck, (wantNot.tuples ck).map (fun x => x.flatten true) =
    [c!"NTNI(fox, NOT want, fox, bake)", c!"NTNI(format, NOT want, format, bake)"] := by
  decide +kernel

theorem Demo.aiming {d : Demo} (h : d.Parsed) {v s u : Nat} (k : (.SUBJ, v, s) ∈ d.arcs ∧ (.OBJ, v, u) ∈ d.arcs ∧
    (∀ b ∈ d.arcs, b.1 ∉ functional → b.2.1 = v → (b.1, b.2.2) = (.SUBJ, s) ∨ (b.1, b.2.2) = (.OBJ, u)) ∧
    (∀ b ∈ d.arcs, b.2.1 = u → b.1 ∈ functional) ∧
    ∀ b ∈ d.arcs, b.1 ∉ functional → b.2.1 ≠ v → b.2.1 ≠ u → b.1 = .AND ∨ b.1 = .OR) : Aiming d.tree v s u := by
  obtain ⟨k1, k2, k5, k6, k7⟩ := k
  refine ⟨(Demo.mem h _ _ _).mpr k1, (Demo.mem h _ _ _).mpr k2,
    fun l x hx hl => ?_, fun l x hx => ?_, fun q l x hx hq hq' hl => ?_⟩
  · exact k5 _ ((Demo.mem h _ _ _).mp hx) hl rfl
  · exact k6 _ ((Demo.mem h _ _ _).mp hx) rfl
  · exact k7 _ ((Demo.mem h _ _ _).mp hx) hl hq hq'

example (args : List Argument) : STuple.mk args ∈ wantNot.tuples ck ↔
    c!"bake" ∉ [c!"have", c!"get", c!"be", c!"do"] ∧ ∃ s' A, Member wantNot.tree 0 s' ∧
      Noun demoLogic wantNot.tokens wantNot.tags s' A ∧
      args = [A, ⟨c!"want", c!"T", affirmed [positive wantNot.tree s', positive wantNot.tree 3, positive wantNot.tree s',
        positive wantNot.tree 6]⟩, A, ⟨c!"bake", c!"I", true⟩] := by
  have h := wantNot_parsed
  have l3 : LemmaOf demoLogic wantNot.tokens wantNot.tags 3 c!"want" :=
    ⟨c!"want", .VERB, none, ⟨c!"want", rfl, by decide +kernel⟩, rfl, by decide +kernel⟩
  have l6 : LemmaOf demoLogic wantNot.tokens wantNot.tags 6 c!"bake" :=
    ⟨c!"bake", .VERB, none, ⟨c!"bake", rfl, by decide +kernel⟩, rfl, by decide +kernel⟩
  exact C143_alone (v := 3) (s := 0) (u := 6) (Demo.reports h) (Demo.neat h (by decide))
    (Demo.aiming h ⟨by decide, by decide, by decide, by decide, by decide⟩)
    rfl rfl (by decide) (Demo.noTo h (by decide)) ⟨_, [], rfl, l3, Demo.noParts h (by decide), rfl⟩
    ⟨_, [], rfl, l6, Demo.noParts' h (by decide), rfl⟩ (Demo.nouns h (by decide)) (by decide) args

end Props
