import Verif.Lemmas.Simple
import Verif.Props.Exactly

/-! C131: simple sentences report exactly what they say. -/

namespace Props
open Py Model Spec

variable {ck : Bool} {c : Logic} {tokens : List Str} {tg : List Tag} {t : Tree Dep Nat} {ts : List STuple} {v s o : Nat} {w q : Str}

/-- **C131.** "Foxes and hens bake cakes": a sentence of subject, verb and object reports the statement for each of the coordinated
subjects and objects, the passive form for each of the objects, and nothing else. -/
theorem C131_transitive (H : Reports ck c tokens tg t ts) (T : NeatParse t) (F : Frame t v s (some (.OBJ, o)))
    (hv : tg[v]? = some .VERB) (hto : ¬ InfTo c.lower tokens (t.children v) v) (hw : SaidBy c tokens tg t v w)
    (hq : ParticipleOf c tokens tg t v q) (hs : Nouns t tg s) (ho : Nouns t tg o)
    (hl : ∀ l, LemmaOf c tokens tg o l → l ∉ reflexives) (args : List Argument) :
    STuple.mk args ∈ ts ↔
      (∃ s' o' a b, Member t s s' ∧ Member t o o' ∧ Noun c tokens tg s' a ∧ Noun c tokens tg o' b ∧
        args = [a, ⟨w, c!"T", affirmed [positive t s', positive t v, positive t o']⟩, b]) ∨
      (w ∉ [c!"have", c!"get"] ∧ ∃ o' b pol, Member t o o' ∧ Noun c tokens tg o' b ∧
        (pol = true ↔ ∃ s', Member t s s' ∧ positive t s' = true) ∧
        args = [b, ⟨c!"be", c!"C", affirmed [pol, positive t v, positive t o']⟩, ⟨q, c!"L", true⟩]) := by
  have hov : o ≠ v := by
    rintro rfl
    obtain ⟨tag, h1, h2⟩ := ho o (.inl rfl)
    rw [hv] at h2
    cases h2
    exact absurd h1 (by decide)
  have hr : ∀ y ∈ some (Dep.OBJ, o), y.1 = .OBJ ∧ y.2 ≠ v ∨ y.1 = .PROP := by rintro y ⟨⟩; exact .inl ⟨rfl, hov⟩
  have fixed : ∀ {i}, ¬ Exactly.Correctable tg t i := F.fixed hr (by rintro y ⟨⟩ e; cases e)
  have hc := F.noCpl hr
  have hself : ¬ Exactly.Self ck c tokens tg t o := not_self fixed hc (ho o (.inl rfl)) hl
  have acts : ∀ {v' x}, Exactly.Acts ck c tokens tg t v' x ↔ v' = v ∧ Member t s x := F.acts hr
  have undergoes : ∀ {v' x}, Exactly.Undergoes ck c tokens tg t v' x ↔ v' = v ∧ Member t o x := F.undergoes hov hself
  have noClause : ∀ {s' v' o' w' u}, ¬ Exactly.HasClause ck c tokens tg t s' v' o' w' u := by
    rintro s' v' o' w' u ⟨-, -, -, h1, h2⟩
    obtain ⟨-, h1⟩ := undergoes.mp h1
    obtain ⟨tag, h3, h4⟩ := ho _ h1
    have : tag = .VERB := by
      cases h2 with
      | particles k => exact (taken_fixed fixed h4 k).1.symm
      | other k => exact (taken_fixed fixed h4 k).1.symm
    subst this
    exact absurd h3 (by decide)
  have noProp : ∀ {p x}, (.PROP, x) ∉ t.children p := F.none (by decide) (by rintro y ⟨⟩; simp)
  have main : Exactly.MainClause ck c tokens tg t v w :=
    ⟨⟨⟨(said_written fixed hv).mpr hw, fun x => noProp, fun x => F.noIprop hr _ x,
      fun x => F.none (by decide) (by rintro y ⟨⟩; simp)⟩, hto⟩, fun _ _ _ _ => noClause⟩
  have pred : ∀ {w'}, Exactly.Predicate ck c tokens tg t v w' → w' = w := fun k =>
    saidBy_unique ((said_written fixed hv).mp k.1) hw
  have named : ∀ {r x}, Nouns t tg r → Member t r x → ∀ {a}, Exactly.Named ck c tokens tg t x a ↔ Noun c tokens tg x a :=
    fun h1 h2 => noun_named fixed hc (h1 _ h2)
  rw [C130_exact H T]
  constructor
  · intro h
    cases h with
    | clauseIntr k | clauseTrans k | clauseProp k => exact absurd k noClause
    | intr k1 k2 k3 =>
      obtain ⟨rfl, -⟩ := acts.mp k2
      exact absurd (undergoes.mpr ⟨rfl, .inl rfl⟩) (k3 o)
    | trans k1 k2 k3 k4 k5 =>
      obtain ⟨rfl, m1⟩ := acts.mp k2
      obtain ⟨-, m2⟩ := undergoes.mp k3
      cases pred k1.1.1
      exact .inl ⟨_, _, _, _, m1, m2, (named hs m1).mp k4, (named ho m2).mp k5, rfl⟩
    | recip _ _ k =>
      obtain ⟨y, k, -⟩ := k
      exact absurd k (F.none (by decide) (by rintro y ⟨⟩; simp))
    | passive k1 k2 k3 k4 k5 k6 =>
      obtain ⟨rfl, m2⟩ := undergoes.mp k3
      cases pred k1
      right
      refine ⟨k2, ?_⟩
      rcases k5 with ⟨-, k5⟩ | ⟨pol, rfl, -, k5⟩
      · exact absurd (acts.mpr ⟨rfl, .inl rfl⟩) (k5 s)
      · refine ⟨_, _, pol, m2, (named ho m2).mp k6, ?_, ?_⟩
        · rw [k5]
          simp [acts]
        · rw [participleOf_unique k4 hq]
          rfl
    | indirect _ _ k =>
      obtain ⟨y, k, -⟩ := k
      exact absurd k (F.noIprop hr _ _)
    | copula k | copulaActive k =>
      obtain ⟨_, _, _, k, -⟩ := k
      exact absurd k noProp
    | participle k => exact absurd k (hc _ _)
    | adjective k | adjectiveActive k =>
      obtain ⟨_, _, _, ⟨k, -⟩ | ⟨k, -⟩⟩ := k <;> exact absurd k (hc _ _)
  · rintro (⟨s', o', a, b, m1, m2, n1, n2, rfl⟩ | ⟨hw', o', b, pol, m2, n2, hp, rfl⟩)
    · exact .trans main (acts.mpr ⟨rfl, m1⟩) (undergoes.mpr ⟨rfl, m2⟩) ((named hs m1).mpr n1) ((named ho m2).mpr n2)
    · exact .passive (l := [pol]) main.1.1 hw' (undergoes.mpr ⟨rfl, m2⟩) hq
        (.inr ⟨pol, rfl, ⟨s, acts.mpr ⟨rfl, .inl rfl⟩⟩, by rw [hp]; simp [acts]⟩) ((named ho m2).mpr n2)

/-- **C131.** "Foxes and hens bake": a sentence of subject and verb reports the statement for each of the coordinated subjects and
nothing else; nothing at all for "have", "get", "be" and "do". -/
theorem C131_intransitive (H : Reports ck c tokens tg t ts) (T : NeatParse t) (F : Frame t v s none)
    (hv : tg[v]? = some .VERB) (hto : ¬ InfTo c.lower tokens (t.children v) v) (hw : SaidBy c tokens tg t v w)
    (hs : Nouns t tg s) (args : List Argument) :
    STuple.mk args ∈ ts ↔ w ∉ [c!"have", c!"get", c!"be", c!"do"] ∧
      ∃ s' a, Member t s s' ∧ Noun c tokens tg s' a ∧ args = [a, ⟨w, c!"I", affirmed [positive t s', positive t v]⟩] := by
  have hr : ∀ y ∈ (none : Option (Dep × Nat)), y.1 = .OBJ ∧ y.2 ≠ v ∨ y.1 = .PROP := by rintro y ⟨⟩
  have fixed : ∀ {i}, ¬ Exactly.Correctable tg t i := F.fixed hr (by rintro y ⟨⟩)
  have hc := F.noCpl hr
  have acts : ∀ {v' x}, Exactly.Acts ck c tokens tg t v' x ↔ v' = v ∧ Member t s x := F.acts hr
  have undergoes : ∀ {v' x}, ¬ Exactly.Undergoes ck c tokens tg t v' x := F.noObject (by rintro y ⟨⟩)
  have noClause : ∀ {s' v' o' w' u}, ¬ Exactly.HasClause ck c tokens tg t s' v' o' w' u := fun k => undergoes k.2.2.2.1
  have noProp : ∀ {p x}, (.PROP, x) ∉ t.children p := F.none (by decide) (by rintro y ⟨⟩)
  have main : Exactly.MainClause ck c tokens tg t v w :=
    ⟨⟨⟨(said_written fixed hv).mpr hw, fun x => noProp, fun x => F.noIprop hr _ x,
      fun x => F.none (by decide) (by rintro y ⟨⟩)⟩, hto⟩, fun _ _ _ _ => noClause⟩
  have named : ∀ {x}, Member t s x → ∀ {a}, Exactly.Named ck c tokens tg t x a ↔ Noun c tokens tg x a :=
    fun h2 => noun_named fixed hc (hs _ h2)
  rw [C130_exact H T]
  constructor
  · intro h
    cases h with
    | clauseIntr k | clauseTrans k | clauseProp k => exact absurd k noClause
    | intr k1 k2 k3 k4 k5 =>
      obtain ⟨rfl, m1⟩ := acts.mp k2
      cases saidBy_unique ((said_written fixed hv).mp k1.1.1.1) hw
      exact ⟨k4, _, _, m1, (named m1).mp k5, rfl⟩
    | trans _ _ k => exact absurd k undergoes
    | recip _ _ k =>
      obtain ⟨y, k, -⟩ := k
      exact absurd k (F.none (by decide) (by rintro y ⟨⟩))
    | passive _ _ k => exact absurd k undergoes
    | indirect _ _ k =>
      obtain ⟨y, k, -⟩ := k
      exact absurd k (F.noIprop hr _ _)
    | copula k | copulaActive k =>
      obtain ⟨_, _, _, k, -⟩ := k
      exact absurd k noProp
    | participle k => exact absurd k (hc _ _)
    | adjective k | adjectiveActive k =>
      obtain ⟨_, _, _, ⟨k, -⟩ | ⟨k, -⟩⟩ := k <;> exact absurd k (hc _ _)
  · rintro ⟨hw', s', a, m1, n1, rfl⟩
    exact .intr main (acts.mpr ⟨rfl, m1⟩) (fun _ => undergoes) hw' ((named m1).mpr n1)

/-- **C131.** "Foxes and hens are happy and red": a sentence of subject, verb and property reports every coordinated property without
marker of every coordinated subject, and nothing else. -/
theorem C131_copula (H : Reports ck c tokens tg t ts) (T : NeatParse t) {p : Nat} (F : Frame t v s (some (.PROP, p)))
    (hv : tg[v]? = some .VERB) (hw : SaidBy c tokens tg t v w) (hs : Nouns t tg s) (hvp : p ≠ v) (hps : ¬ Member t s p)
    (args : List Argument) :
    STuple.mk args ∈ ts ↔ ∃ s' p' a b, Member t s s' ∧ Member t p p' ∧ Unmarked t p' ∧ Noun c tokens tg s' a ∧
      Exactly.Given ck c tokens tg t p' b ∧ args = [a, ⟨w, c!"C", affirmed [positive t s', positive t v, positive t p']⟩, b] := by
  have hr : ∀ y ∈ some (Dep.PROP, p), y.1 = .OBJ ∧ y.2 ≠ v ∨ y.1 = .PROP := by rintro y ⟨⟩; exact .inr rfl
  have hc := F.noCpl hr
  have fv : ¬ Exactly.Correctable tg t v := F.fixed hr (by rintro y ⟨⟩ -; exact hvp)
  have acts : ∀ {v' x}, Exactly.Acts ck c tokens tg t v' x ↔ v' = v ∧ Member t s x := F.acts hr
  have undergoes : ∀ {v' x}, ¬ Exactly.Undergoes ck c tokens tg t v' x := F.noObject (by rintro y ⟨⟩; rfl)
  have noClause : ∀ {s' v' o' w' u}, ¬ Exactly.HasClause ck c tokens tg t s' v' o' w' u := fun k => undergoes k.2.2.2.1
  have rel : ∀ {v i n : Nat}, ¬ Exactly.RelativeTo ck c tokens tg t v i n := fun ⟨_, k, _⟩ => hc _ _ k
  have named : ∀ {x}, Member t s x → ∀ {a}, Exactly.Named ck c tokens tg t x a ↔ Noun c tokens tg x a :=
    fun {x} h2 => noun_named (F.fixed hr (by rintro y ⟨⟩ - rfl; exact hps h2)) hc (hs _ h2)
  have said : ∀ {tag w'}, Exactly.Written ck c tokens tg t v tag w' → tag = .VERB := by
    intro tag w' k
    cases k with
    | particles k | pronoun k | compound k | noun k | other k => exact (taken_fixed fv hv k).1
  have linking : ∀ {n v' p'}, Exactly.Linking ck c tokens tg t n v' p' ↔ v' = v ∧ Member t s n ∧ Member t p p' ∧ Unmarked t p' := by
    intro n v' p'
    constructor
    · rintro ⟨i, s₀, q, h1, h2, h3, h4, h5, h6⟩
      obtain ⟨rfl, k⟩ := F.arc h1 (by decide) (by decide) (by decide)
      have : q = p := by
        rcases k with k | k
        · exact absurd (congrArg Prod.fst k) (by simp)
        · exact congrArg Prod.snd (Option.some.inj k)
      subst this
      cases (F.first (by rintro y ⟨⟩; simp)).mp h4
      rcases h5 with k | ⟨-, k⟩ | ⟨-, -, rfl⟩
      · exact absurd k rel
      · exact absurd k id
      · exact ⟨rfl, h6, h2, h3⟩
    · rintro ⟨rfl, h1, h2, h3⟩
      exact ⟨s, s, p, F.also _ rfl, h2, h3, (F.first (by rintro y ⟨⟩; simp)).mpr rfl, .inr (.inr ⟨fun _ => rel, fun _ => id, rfl⟩), h1⟩
  rw [C130_exact H T]
  constructor
  · intro h
    cases h with
    | clauseIntr k | clauseTrans k | clauseProp k => exact absurd k noClause
    | intr k1 k2 =>
      obtain ⟨rfl, -⟩ := acts.mp k2
      exact absurd (F.also _ rfl) (k1.1.1.2.1 p)
    | trans _ _ k => exact absurd k undergoes
    | recip _ _ k =>
      obtain ⟨y, k, -⟩ := k
      exact absurd k (F.none (by decide) (by rintro y ⟨⟩; simp))
    | passive _ _ k => exact absurd k undergoes
    | indirect _ _ k =>
      obtain ⟨y, k, -⟩ := k
      exact absurd k (F.noIprop hr _ _)
    | copula k1 k2 k3 k4 =>
      obtain ⟨rfl, m1, m2, m3⟩ := linking.mp k1
      cases said k2
      cases saidBy_unique ((said_written fv hv).mp k2) hw
      exact ⟨_, _, _, _, m1, m2, m3, (named m1).mp k3, k4, rfl⟩
    | copulaActive _ _ k =>
      obtain ⟨_, _, _, _, k, -⟩ := k
      exact absurd k (hc _ _)
    | participle k => exact absurd k (hc _ _)
    | adjective k | adjectiveActive k =>
      obtain ⟨_, _, _, ⟨k, -⟩ | ⟨k, -⟩⟩ := k <;> exact absurd k (hc _ _)
  · rintro ⟨s', p', a, b, m1, m2, m3, n1, n2, rfl⟩
    exact .copula (linking.mpr ⟨rfl, m1, m2, m3⟩) ((said_written fv hv).mpr hw) ((named m1).mpr n1) n2

/-! ### Examples -/

abbrev Demo.IsFrame (d : Demo) (v s : Nat) (rest : Option (Dep × Nat)) : Prop :=
  (.SUBJ, v, s) ∈ d.arcs ∧ (∀ y ∈ rest, (y.1, v, y.2) ∈ d.arcs) ∧
  (∀ a ∈ d.arcs, a.1 ∉ functional → a.2.1 = v → (a.1, a.2.2) = (.SUBJ, s) ∨ some (a.1, a.2.2) = rest) ∧
  ∀ a ∈ d.arcs, a.1 ∉ functional → a.2.1 ≠ v → a.1 = .AND ∨ a.1 = .OR

theorem Demo.frame {d : Demo} (h : d.Parsed) {v s : Nat} {rest : Option (Dep × Nat)} (k : d.IsFrame v s rest) :
    Frame d.tree v s rest := by
  obtain ⟨k1, k2, k3, k4⟩ := k
  refine ⟨(Demo.mem h _ _ _).mpr k1, fun y hy => (Demo.mem h _ _ _).mpr (k2 y hy), fun l x hx hl => ?_, fun q l x hx hq hl => ?_⟩
  · exact k3 _ ((Demo.mem h _ _ _).mp hx) hl rfl
  · exact k4 _ ((Demo.mem h _ _ _).mp hx) hl hq

theorem Demo.member {d : Demo} (h : d.Parsed) {i x : Nat} :
    Member d.tree i x ↔ x = i ∨ (.AND, i, x) ∈ d.arcs ∨ (.OR, i, x) ∈ d.arcs := by
  rw [Member, Demo.mem h, Demo.mem h]

theorem Demo.nouns {d : Demo} (h : d.Parsed) {i : Nat} (k : (∃ tag ∈ nominal, d.tags[i]? = some tag) ∧
    ∀ a ∈ d.arcs, a.1 = .AND ∨ a.1 = .OR → a.2.1 = i → ∃ tag ∈ nominal, d.tags[a.2.2]? = some tag) : Nouns d.tree d.tags i := by
  intro x hx
  rw [Demo.member h] at hx
  rcases hx with rfl | hx | hx
  · exact k.1
  · exact k.2 _ hx (.inl rfl) rfl
  · exact k.2 _ hx (.inr rfl) rfl

theorem Demo.noTo {d : Demo} (h : d.Parsed) {v : Nat} (k : ∀ a ∈ d.arcs, a.2.1 = v → a.1 ≠ .PART) :
    ¬ InfTo demoLogic.lower d.tokens (d.tree.children v) v := by
  rintro ⟨x, tok, -, hx, -⟩
  exact k _ ((Demo.mem h _ _ _).mp hx) rfl rfl

/-- "No foxes and formats bake foxes." -/
example (args : List Argument) : STuple.mk args ∈ noFoxes.tuples ck ↔
    (∃ s' o' a b, Member noFoxes.tree 1 s' ∧ Member noFoxes.tree 5 o' ∧ Noun demoLogic noFoxes.tokens noFoxes.tags s' a ∧
      Noun demoLogic noFoxes.tokens noFoxes.tags o' b ∧
      args = [a, ⟨c!"bake", c!"T", affirmed [positive noFoxes.tree s', positive noFoxes.tree 4, positive noFoxes.tree o']⟩, b]) ∨
    (c!"bake" ∉ [c!"have", c!"get"] ∧ ∃ o' b pol, Member noFoxes.tree 5 o' ∧ Noun demoLogic noFoxes.tokens noFoxes.tags o' b ∧
      (pol = true ↔ ∃ s', Member noFoxes.tree 1 s' ∧ positive noFoxes.tree s' = true) ∧
      args = [b, ⟨c!"be", c!"C", affirmed [pol, positive noFoxes.tree 4, positive noFoxes.tree o']⟩, ⟨c!"baked", c!"L", true⟩]) := by
  have h := noFoxes_parsed
  have l4 : LemmaOf demoLogic noFoxes.tokens noFoxes.tags 4 c!"bake" :=
    ⟨c!"bake", .VERB, none, ⟨c!"bake", rfl, by decide +kernel⟩, rfl, by decide +kernel⟩
  have l5 : LemmaOf demoLogic noFoxes.tokens noFoxes.tags 5 c!"fox" :=
    ⟨c!"foxes", .NOUN, some .PLURAL, ⟨c!"foxes", rfl, by decide +kernel⟩, rfl, by decide +kernel⟩
  exact C131_transitive (Demo.reports h) (Demo.neat h (by decide)) (Demo.frame h (by decide)) rfl (Demo.noTo h (by decide))
    ⟨_, [], rfl, l4, Demo.noParts h (by decide), rfl⟩
    ⟨_, c!"baked", [], l4, by decide +kernel, Demo.noParts h (by decide), rfl⟩ (Demo.nouns h (by decide)) (Demo.nouns h (by decide))
    (fun l hl => by rw [LemmaOf_unique hl l5]; decide) args

/-- "Foxes and formats bake." -/
def bakersOnly : Demo where
  tokens := [c!"Foxes", c!"and", c!"formats", c!"bake"]
  tags := [.NOUN, .CONJ, .NOUN, .VERB]
  deps := [.SUBJ, .NODEP, .AND, .ROOT]
  trans := [(0, 2, .RIGHT), (2, 3, .REDUCE), (0, 3, .LEFT)]
  root := 3
  arcs := [(.AND, 0, 2), (.SUBJ, 3, 0)]

theorem bakersOnly_parsed : bakersOnly.Parsed := by decide +kernel

theorem bakersOnly_tuples : ∀ ck, (bakersOnly.tuples ck).map (fun x => x.flatten true) =
    [c!"NI(fox, bake)", c!"NI(format, bake)"] := by decide +kernel

example (args : List Argument) : STuple.mk args ∈ bakersOnly.tuples ck ↔ c!"bake" ∉ [c!"have", c!"get", c!"be", c!"do"] ∧
    ∃ s' a, Member bakersOnly.tree 0 s' ∧ Noun demoLogic bakersOnly.tokens bakersOnly.tags s' a ∧
      args = [a, ⟨c!"bake", c!"I", affirmed [positive bakersOnly.tree s', positive bakersOnly.tree 3]⟩] := by
  have h := bakersOnly_parsed
  have l3 : LemmaOf demoLogic bakersOnly.tokens bakersOnly.tags 3 c!"bake" :=
    ⟨c!"bake", .VERB, none, ⟨c!"bake", rfl, by decide +kernel⟩, rfl, by decide +kernel⟩
  exact C131_intransitive (v := 3) (s := 0) (Demo.reports h) (Demo.neat h (by decide)) (Demo.frame h (by decide)) rfl
    (Demo.noTo h (by decide)) ⟨_, [], rfl, l3, Demo.noParts h (by decide), rfl⟩
    (Demo.nouns h (by decide)) args

/-- "Foxes are not baked or formats." -/
def bakedOrFormats : Demo where
  tokens := [c!"Foxes", c!"are", c!"not", c!"baked", c!"or", c!"formats"]
  tags := [.NOUN, .VERB, .ADV, .ADJ, .CONJ, .NOUN]
  deps := [.SUBJ, .ROOT, .NEG, .PROP, .NODEP, .OR]
  trans := [(0, 1, .LEFT), (1, 2, .RIGHT), (2, 3, .REDUCE), (1, 3, .RIGHT), (3, 5, .RIGHT)]
  root := 1
  arcs := [(.SUBJ, 1, 0), (.NEG, 1, 2), (.PROP, 1, 3), (.OR, 3, 5)]

theorem bakedOrFormats_parsed : bakedOrFormats.Parsed := by decide +kernel

theorem bakedOrFormats_tuples : ∀ ck, (bakedOrFormats.tuples ck).map (fun x => x.flatten true) =
    [c!"NCL(fox, NOT be, baked)", c!"NCN(fox, NOT be, format)"] := by decide +kernel

example (args : List Argument) : STuple.mk args ∈ bakedOrFormats.tuples ck ↔ ∃ s' p' a b, Member bakedOrFormats.tree 0 s' ∧
    Member bakedOrFormats.tree 3 p' ∧ Unmarked bakedOrFormats.tree p' ∧
    Noun demoLogic bakedOrFormats.tokens bakedOrFormats.tags s' a ∧
    Exactly.Given ck demoLogic bakedOrFormats.tokens bakedOrFormats.tags bakedOrFormats.tree p' b ∧
    args = [a, ⟨c!"be", c!"C", affirmed [positive bakedOrFormats.tree s', positive bakedOrFormats.tree 1,
      positive bakedOrFormats.tree p']⟩, b] := by
  have h := bakedOrFormats_parsed
  have l1 : LemmaOf demoLogic bakedOrFormats.tokens bakedOrFormats.tags 1 c!"be" :=
    ⟨c!"are", .VERB, none, ⟨c!"are", rfl, by decide +kernel⟩, rfl, by decide +kernel⟩
  exact C131_copula (v := 1) (s := 0) (p := 3) (Demo.reports h) (Demo.neat h (by decide)) (Demo.frame h (by decide)) rfl
    ⟨_, [], rfl, l1, Demo.noParts h (by decide), rfl⟩
    (Demo.nouns h (by decide)) (by decide) (by rw [Demo.member h]; decide) args

end Props
