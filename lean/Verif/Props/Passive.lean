import Verif.Lemmas.Passive
import Verif.Props.Simple

/-! C132: active and passive sentences report the same.

Full claim: `ActivePassive` below. -/

namespace Props
open Py Model Spec

variable {ck : Bool} {c : Logic} {tokens : List Str} {tg : List Tag} {t : Tree Dep Nat} {ts : List STuple} {v s p y : Nat}
  {w w₀ q : Str}

/-- **C132.** "Cakes and pies are baked by foxes": a passive sentence with agent reports that each of the coordinated subjects is
baked and that each of the coordinated agents bakes each of them, and nothing else. -/
theorem C132_passive (H : Reports ck c tokens tg t ts) (T : NeatParse t) (F : PassiveFrame c tokens t v s p y)
    (hv : tg[v]? = some .VERB) (hw₀ : SaidBy c tokens tg t v w₀) (hq : AdjectiveBy c tokens tg t p q)
    (hw : PastForm c tokens t p w) (hne : w ≠ []) (hs : Nouns t tg s) (hy : Nouns t tg y) (args : List Argument) :
    STuple.mk args ∈ ts ↔
      (∃ s' a, Member t s s' ∧ Noun c tokens tg s' a ∧
        args = [a, ⟨w₀, c!"C", affirmed [positive t s', positive t v, positive t p]⟩, ⟨q, c!"L", true⟩]) ∨
      ∃ y' s' a b, Member t y y' ∧ Member t s s' ∧ Noun c tokens tg y' a ∧ Noun c tokens tg s' b ∧
        args = [a, ⟨w, c!"T", affirmed [positive t y', positive t p, positive t s']⟩, b] := by
  have hp : tg[p]? = some .ADJ := by
    obtain ⟨_, _, k, -⟩ := hq
    exact k
  have fixed : ∀ {i}, ¬ Exactly.Correctable tg t i := F.fixed
  have taken : ∀ {i tag tag'}, tg[i]? = some tag → Exactly.Taken c tokens tg t i tag' → tag' = tag := fun h k =>
    (taken_fixed fixed h k).1
  have notY : ∀ {tag}, tag ∉ nominal → ¬ Exactly.Taken c tokens tg t y tag := by
    intro tag hn k
    obtain ⟨tag', h1, h2⟩ := hy y (.inl rfl)
    exact hn (taken h2 k ▸ h1)
  have notP : ¬ Exactly.AsNominal c tokens tg t p := by
    rintro ⟨tag, h1, h2⟩
    cases taken hp h2
    exact absurd h1 (by decide)
  have simple : ∀ i w, ¬ Exactly.Compounds c tokens tg t i w := by
    rintro i w ⟨⟨x, k, -, -, -, k'⟩, -⟩
    obtain ⟨rfl, -⟩ := F.cpl k
    exact notP k'
  have rel : ∀ {v i n : Nat}, ¬ Exactly.RelativeTo ck c tokens tg t v i n := by
    rintro v i n ⟨-, k, k', -⟩
    obtain ⟨rfl, -⟩ := F.cpl k
    exact notP k'
  have noObj : ∀ {i x}, (.OBJ, x) ∉ t.children i := F.none (by decide)
  have named : ∀ {r x}, Nouns t tg r → Member t r x → ∀ {a}, Exactly.Named ck c tokens tg t x a ↔ Noun c tokens tg x a :=
    fun h1 h2 => simple_named fixed (simple _) (h1 _ h2)
  have acts : ∀ {v' x}, Exactly.Acts ck c tokens tg t v' x → v' = v := by
    rintro v' x ⟨v₀, s₀, h1, -, h3⟩
    have : v₀ = v := by
      rcases h1 with ⟨i, h1, -⟩ | ⟨n, k, -, k', -⟩
      · exact (F.subj_arc h1).1
      · obtain ⟨-, rfl⟩ := F.cpl k
        exact absurd k' (notY (by decide))
    subst this
    rcases h3 with rfl | ⟨h3, -⟩
    · rfl
    · exact F.member h3
  have undergoes : ∀ {v' x}, ¬ Exactly.Undergoes ck c tokens tg t v' x := by
    rintro v' x ⟨v₀, s₀, ⟨i, h1, -⟩ | ⟨_, _, _, k, -, k', -⟩, -⟩
    · exact noObj h1
    · obtain ⟨rfl, -⟩ := F.cpl k
      exact notP k'
  have noClause : ∀ {s' v' o' w' u}, ¬ Exactly.HasClause ck c tokens tg t s' v' o' w' u := fun k => undergoes k.2.2.2.1
  have noMain : ∀ {v' w' x}, Exactly.MainClause ck c tokens tg t v' w' → ¬ Exactly.Acts ck c tokens tg t v' x := by
    intro v' w' x k1 k2
    cases acts k2
    exact k1.1.1.2.1 p F.prop
  have linking : ∀ {n v' p'}, Exactly.Linking ck c tokens tg t n v' p' ↔ v' = v ∧ p' = p ∧ Member t s n := by
    intro n v' p'
    constructor
    · rintro ⟨i, s₀, r, h1, h2, h3, h4, h5, h6⟩
      obtain ⟨rfl, rfl⟩ := F.prop_arc h1
      cases F.member_participle h2
      cases F.first.mp h4
      rcases h5 with k | ⟨-, k⟩ | ⟨-, -, rfl⟩
      · exact absurd k rel
      · exact absurd k id
      · exact ⟨rfl, rfl, h6⟩
    · rintro ⟨rfl, rfl, h1⟩
      exact ⟨s, s, _, F.prop, .inl rfl, F.unmarked, F.first.mpr rfl, .inr (.inr ⟨fun _ => rel, fun _ => id, rfl⟩), h1⟩
  have describes : ∀ {n p'}, ¬ Exactly.Describes c tokens tg t n p' := by
    rintro n p' ⟨r, -, k, ⟨k1, -⟩ | ⟨k1, x, k2⟩⟩
    · obtain ⟨-, rfl⟩ := F.cpl k1
      exact notY (by decide) k
    · obtain ⟨-, rfl⟩ := F.cpl k1
      exact F.noComparison x k2
  have agent : ∀ {x}, Exactly.Agent c tokens t p x ↔ Member t y x := by
    intro x
    constructor
    · rintro ⟨y', m, tok, r, h1, h2, -⟩
      obtain ⟨-, rfl⟩ := F.cpl h1
      exact h2
    · intro h
      obtain ⟨m, tok, h1, h2, h3⟩ := F.by_
      exact ⟨y, m, tok, v, F.agent, h, h1, h2, h3, .inl F.prop⟩
  rw [C130_exact H T]
  constructor
  · intro h
    cases h with
    | clauseIntr k | clauseTrans k | clauseProp k => exact absurd k noClause
    | intr k1 k2 | trans k1 k2 | recip k1 k2 => exact absurd k2 (noMain k1)
    | passive _ _ k => exact absurd k undergoes
    | indirect k => exact absurd (firstArc k) noObj
    | copula k1 k2 k3 k4 =>
      obtain ⟨rfl, rfl, m1⟩ := linking.mp k1
      cases written_tag fixed hv k2
      cases saidBy_unique ((said_written fixed hv).mp k2) hw₀
      left
      refine ⟨_, _, m1, (named hs m1).mp k3, ?_⟩
      obtain ⟨tag, -, g1, g2, g3⟩ := k4
      cases written_tag fixed hp g1
      rename_i b
      obtain ⟨bw, bc, ba⟩ := b
      have e1 := adjectiveBy_unique ((adjective_written fixed hp).mp g1) hq
      have e2 : bc = c!"L" := by
        rcases g2 with ⟨-, ⟨g2, -⟩ | ⟨-, g2⟩⟩ | ⟨g2, -⟩
        · exact g2
        · exact absurd ⟨rfl, w, hne, hw⟩ g2
        · exact absurd rfl g2
      simp only at e1 g3
      rw [e1, e2, g3]
    | copulaActive k1 k2 k3 k4 k5 =>
      obtain ⟨rfl, rfl, m1⟩ := linking.mp k1
      have m2 := agent.mp k3
      cases pastForm_unique k2.2.2 hw
      exact .inr ⟨_, _, _, _, m2, m1, (named hy m2).mp k4, (named hs m1).mp k5, rfl⟩
    | participle k1 k2 =>
      obtain ⟨-, rfl⟩ := F.cpl k1
      obtain ⟨m, tok, h1, -⟩ := F.by_
      exact absurd (firstArc h1) (k2 m)
    | adjective k | adjectiveActive k => exact absurd k describes
  · have tk : Exactly.Taken c tokens tg t p .ADJ := by
      obtain ⟨_, _, -, k, -⟩ := hq
      exact .same k hp fun k => absurd k fixed
    rintro (⟨s', a, m1, n1, rfl⟩ | ⟨y', s', a, b, m2, m1, n1, n2, rfl⟩)
    · exact .copula (linking.mpr ⟨rfl, rfl, m1⟩) ((said_written fixed hv).mpr hw₀) ((named hs m1).mpr n1)
        ⟨.ADJ, .inr rfl, (adjective_written fixed hp).mpr hq, .inl ⟨rfl, .inl ⟨rfl, rfl, w, hne, hw⟩⟩, rfl⟩
    · exact .copulaActive (linking.mpr ⟨rfl, rfl, m1⟩) ⟨tk, hne, hw⟩ (agent.mpr m2) ((named hy m2).mpr n1) ((named hs m1).mpr n2)

/-- The expectation of C132: an active sentence and its passive counterpart report the same. -/
def ActivePassive (ck : Bool) : Prop :=
  ∀ (c : Logic) (tokens : List Str) (tg : List Tag) (t : Tree Dep Nat) (ts : List STuple) (v s o : Nat)
    (tokens' : List Str) (tg' : List Tag) (t' : Tree Dep Nat) (ts' : List STuple) (v' s' p y : Nat) (w q : Str),
    Reports ck c tokens tg t ts → NeatParse t → Reports ck c tokens' tg' t' ts' → NeatParse t' →
    Counterparts c tokens tg t v s o tokens' tg' t' v' s' p y w q → ∀ x, x ∈ ts ↔ x ∈ ts'

/-- **C132** (partial: full statement `ActivePassive`, refuted by `C132_negated_false`). Affirmative active and passive sentences
report the same. -/
theorem C132_same_partial {tokens' : List Str} {tg' : List Tag} {t' : Tree Dep Nat} {ts' : List STuple} {o v' s' : Nat}
    (H : Reports ck c tokens tg t ts) (T : NeatParse t) (H' : Reports ck c tokens' tg' t' ts') (T' : NeatParse t')
    (V : Counterparts c tokens tg t v s o tokens' tg' t' v' s' p y w q) (hp : positive t v = true) (x : STuple) :
    x ∈ ts ↔ x ∈ ts' := by
  obtain ⟨args⟩ := x
  have pos : ∀ i, positive t i = true := by
    intro i
    by_cases e : i = v
    · rw [e, hp]
    · exact positive_of fun x k => e (V.only_verb i x k)
  have pos' : ∀ i, positive t' i = true := by
    intro i
    by_cases e : i = v'
    · rw [e, ← V.negation, hp]
    · exact positive_of fun x k => e (V.only_copula i x k)
  rw [C131_transitive H T V.active V.verb V.noTo V.said V.participle V.subjects V.objects V.not_reflexive,
    C132_passive H' T' V.passive V.copula V.be V.adjective V.past V.not_empty V.subjects' V.agents']
  simp only [pos, pos']
  constructor
  · rintro (⟨i, j, a, b, m1, m2, n1, n2, rfl⟩ | ⟨-, j, b, pol, m2, n2, hpol, rfl⟩)
    · obtain ⟨i', m1, n1⟩ := (V.same_agents a).mp ⟨i, m1, n1⟩
      obtain ⟨j', m2, n2⟩ := (V.same_patients b).mp ⟨j, m2, n2⟩
      exact .inr ⟨i', j', a, b, m1, m2, n1, n2, rfl⟩
    · obtain ⟨j', m2, n2⟩ := (V.same_patients b).mp ⟨j, m2, n2⟩
      cases hpol.mpr ⟨s, .inl rfl, trivial⟩
      exact .inl ⟨j', b, m2, n2, rfl⟩
  · rintro (⟨j, b, m2, n2, rfl⟩ | ⟨i, j, a, b, m1, m2, n1, n2, rfl⟩)
    · obtain ⟨j', m2, n2⟩ := (V.same_patients b).mpr ⟨j, m2, n2⟩
      exact .inr ⟨V.not_have, j', b, true, m2, n2, ⟨fun _ => ⟨s, .inl rfl, trivial⟩, fun _ => rfl⟩, rfl⟩
    · obtain ⟨i', m1, n1⟩ := (V.same_agents a).mpr ⟨i, m1, n1⟩
      obtain ⟨j', m2, n2⟩ := (V.same_patients b).mpr ⟨j, m2, n2⟩
      exact .inl ⟨i', j', a, b, m1, m2, n1, n2, rfl⟩

/-! ### Examples -/

abbrev Demo.IsPassive (d : Demo) (v s p y m : Nat) : Prop :=
  (.SUBJ, v, s) ∈ d.arcs ∧ (.PROP, v, p) ∈ d.arcs ∧ (.CPL, p, y) ∈ d.arcs ∧ (.MARK, y, m) ∈ d.arcs ∧ d.tokens[m]? = some c!"by" ∧
  (∀ a ∈ d.arcs, a.1 ∉ functional → a.2.1 = v → (a.1, a.2.2) = (.SUBJ, s) ∨ (a.1, a.2.2) = (.PROP, p)) ∧
  (∀ a ∈ d.arcs, a.1 ∉ functional → a.2.1 = p → (a.1, a.2.2) = (.CPL, y)) ∧
  (∀ a ∈ d.arcs, a.1 ∉ functional → a.2.1 ≠ v → a.2.1 ≠ p → a.1 = .AND ∨ a.1 = .OR) ∧
  (∀ a ∈ d.arcs, a.2.1 = p → a.1 ≠ .MARK ∧ a.1 ≠ .CMARK ∧ a.1 ≠ .IMARK) ∧
  ∀ a ∈ d.arcs, a.2.1 = y → (a.1 = .MARK → a.2.2 = m) ∧ a.1 ≠ .CMARK

theorem Demo.passive {d : Demo} (h : d.Parsed) {v s p y m : Nat} (k : d.IsPassive v s p y m) :
    PassiveFrame demoLogic d.tokens d.tree v s p y := by
  obtain ⟨k1, k2, k3, k4, k5, k6, k7, k8, k9, k10⟩ := k
  refine ⟨(Demo.mem h _ _ _).mpr k1, (Demo.mem h _ _ _).mpr k2, (Demo.mem h _ _ _).mpr k3, ?_, ?_, ?_, ?_, ?_, ?_⟩
  · exact fun l x hx hl => k6 _ ((Demo.mem h _ _ _).mp hx) hl rfl
  · exact fun l x hx hl => k7 _ ((Demo.mem h _ _ _).mp hx) hl rfl
  · exact fun r l x hx h1 h2 hl => k8 _ ((Demo.mem h _ _ _).mp hx) hl h1 h2
  · exact fun l x hx => k9 _ ((Demo.mem h _ _ _).mp hx) rfl
  · refine ⟨m, c!"by", ?_, k5, by decide +kernel⟩
    have key : ∀ {x}, Exactly.First d.tree y .MARK x → x = m := fun hx =>
      (k10 _ ((Demo.mem h _ _ _).mp (firstArc hx)) rfl).1 rfl
    cases e : (((d.tree.children y).filter fun a => a.1 = .MARK).map Prod.snd).head? with
    | none =>
      rw [List.head?_eq_none_iff, List.map_eq_nil_iff, List.filter_eq_nil_iff] at e
      exact absurd (by simp) (e _ ((Demo.mem h _ _ _).mpr k4))
    | some x =>
      have : x = m := key e
      subst this
      exact e
  · exact fun x hx => (k10 _ ((Demo.mem h _ _ _).mp hx) rfl).2 rfl

theorem common_noun {i : Nat} {l : Str} {a : Argument} (hl : LemmaOf c tokens tg i l) (ht : tg[i]? = some .NOUN) :
    Noun c tokens tg i a ↔ a = ⟨l, c!"N", true⟩ := by
  constructor
  · rintro ⟨l', tag, h1, h2, -, h3, h4, h5⟩
    rw [ht] at h2
    cases h2
    cases LemmaOf_unique hl h1
    obtain ⟨aw, ac, aa⟩ := a
    have e : ac = c!"N" := by
      simp only at h3
      cases h3
      rfl
    simp only at h4 h5
    rw [e, h4, h5]
    rfl
  · rintro rfl
    exact ⟨l, .NOUN, hl, ht, by decide, .noun (by decide) (by decide) (by decide) (by decide), rfl, rfl⟩

theorem Demo.called {d : Demo} (h : d.Parsed) {i : Nat} {l : Str} {a : Argument} (hl : LemmaOf demoLogic d.tokens d.tags i l)
    (ht : d.tags[i]? = some .NOUN) (hm : ∀ a ∈ d.arcs, a.2.1 = i → a.1 ≠ .AND ∧ a.1 ≠ .OR) :
    CalledIn demoLogic d.tokens d.tags d.tree i a ↔ a = ⟨l, c!"N", true⟩ := by
  rw [← common_noun hl ht]
  constructor
  · rintro ⟨x, hx, n⟩
    rw [Demo.member h] at hx
    rcases hx with rfl | hx | hx
    · exact n
    · exact absurd rfl (hm _ hx rfl).1
    · exact absurd rfl (hm _ hx rfl).2
  · exact fun n => ⟨i, .inl rfl, n⟩

/-- "Formats are baked by foxes." -/
def bakedByFoxes : Demo where
  tokens := [c!"Formats", c!"are", c!"baked", c!"by", c!"foxes"]
  tags := [.NOUN, .VERB, .ADJ, .PREP, .NOUN]
  deps := [.SUBJ, .ROOT, .PROP, .MARK, .CPL]
  trans := [(0, 1, .LEFT), (1, 2, .RIGHT), (3, 4, .LEFT), (2, 4, .RIGHT)]
  root := 1
  arcs := [(.SUBJ, 1, 0), (.PROP, 1, 2), (.MARK, 4, 3), (.CPL, 2, 4)]

theorem bakedByFoxes_parsed : bakedByFoxes.Parsed := by decide +kernel

theorem bakedByFoxes_tuples : ∀ ck, (bakedByFoxes.tuples ck).map (fun x => x.flatten true) =
    [c!"NCL(format, be, baked)", c!"NTN(fox, bake, format)"] := by decide +kernel

/-- "Formats are not baked by foxes." -/
def notBakedByFoxes : Demo where
  tokens := [c!"Formats", c!"are", c!"not", c!"baked", c!"by", c!"foxes"]
  tags := [.NOUN, .VERB, .ADV, .ADJ, .PREP, .NOUN]
  deps := [.SUBJ, .ROOT, .NEG, .PROP, .MARK, .CPL]
  trans := [(0, 1, .LEFT), (1, 2, .RIGHT), (2, 3, .REDUCE), (1, 3, .RIGHT), (4, 5, .LEFT), (3, 5, .RIGHT)]
  root := 1
  arcs := [(.SUBJ, 1, 0), (.NEG, 1, 2), (.PROP, 1, 3), (.MARK, 5, 4), (.CPL, 3, 5)]

theorem notBakedByFoxes_parsed : notBakedByFoxes.Parsed := by decide +kernel

theorem notBakedByFoxes_tuples : ∀ ck, (notBakedByFoxes.tuples ck).map (fun x => x.flatten true) =
    [c!"NCL(format, NOT be, baked)", c!"NTN(fox, bake, format)"] := by decide +kernel

theorem foxesBake_counterparts : Counterparts demoLogic plainFoxes.tokens plainFoxes.tags plainFoxes.tree 1 0 2
    bakedByFoxes.tokens bakedByFoxes.tags bakedByFoxes.tree 1 0 2 4 c!"bake" c!"baked" := by
  have h := plainFoxes_parsed
  have h' := bakedByFoxes_parsed
  have l0 : LemmaOf demoLogic plainFoxes.tokens plainFoxes.tags 0 c!"fox" :=
    ⟨c!"foxes", .NOUN, some .PLURAL, ⟨c!"Foxes", rfl, by decide +kernel⟩, rfl, by decide +kernel⟩
  have l1 : LemmaOf demoLogic plainFoxes.tokens plainFoxes.tags 1 c!"bake" :=
    ⟨c!"baked", .VERB, some .PAST, ⟨c!"baked", rfl, by decide +kernel⟩, rfl, by decide +kernel⟩
  have l2 : LemmaOf demoLogic plainFoxes.tokens plainFoxes.tags 2 c!"format" :=
    ⟨c!"formats", .NOUN, some .PLURAL, ⟨c!"formats", rfl, by decide +kernel⟩, rfl, by decide +kernel⟩
  have k0 : LemmaOf demoLogic bakedByFoxes.tokens bakedByFoxes.tags 0 c!"format" :=
    ⟨c!"formats", .NOUN, some .PLURAL, ⟨c!"Formats", rfl, by decide +kernel⟩, rfl, by decide +kernel⟩
  have k1 : LemmaOf demoLogic bakedByFoxes.tokens bakedByFoxes.tags 1 c!"be" :=
    ⟨c!"are", .VERB, none, ⟨c!"are", rfl, by decide +kernel⟩, rfl, by decide +kernel⟩
  have k2 : LemmaOf demoLogic bakedByFoxes.tokens bakedByFoxes.tags 2 c!"baked" :=
    ⟨c!"baked", .ADJ, none, ⟨c!"baked", rfl, by decide +kernel⟩, rfl, by decide +kernel⟩
  have k4 : LemmaOf demoLogic bakedByFoxes.tokens bakedByFoxes.tags 4 c!"fox" :=
    ⟨c!"foxes", .NOUN, some .PLURAL, ⟨c!"foxes", rfl, by decide +kernel⟩, rfl, by decide +kernel⟩
  have none : ∀ a ∈ plainFoxes.arcs, a.1 ≠ .NEG := by decide
  have none' : ∀ a ∈ bakedByFoxes.arcs, a.1 ≠ .NEG := by decide
  exact {
    active := Demo.frame h (by decide)
    passive := Demo.passive (m := 3) h' ⟨by decide, by decide, by decide, by decide, by decide, by decide, by decide, by decide, by decide, by decide⟩
    verb := rfl
    copula := rfl
    noTo := Demo.noTo h (by decide)
    said := ⟨_, [], rfl, l1, Demo.noParts h (by decide), rfl⟩
    past := ⟨Demo.word h' (by decide), c!"baked", c!"bake", [], ⟨c!"baked", rfl, by decide +kernel⟩, by decide +kernel,
      Demo.noParts h' (by decide), rfl⟩
    not_empty := by decide
    not_have := by decide
    participle := ⟨_, c!"baked", [], l1, by decide +kernel, Demo.noParts h (by decide), rfl⟩
    adjective := ⟨_, [], rfl, k2, Demo.noParts h' (by decide), rfl⟩
    be := ⟨_, [], rfl, k1, Demo.noParts h' (by decide), rfl⟩
    subjects := Demo.nouns h (by decide)
    objects := Demo.nouns h (by decide)
    subjects' := Demo.nouns h' (by decide)
    agents' := Demo.nouns h' (by decide)
    not_reflexive := fun l hl => by rw [LemmaOf_unique hl l2]; decide
    same_agents := fun a => by rw [Demo.called h l0 rfl (by decide), Demo.called h' k4 rfl (by decide)]
    same_patients := fun a => by rw [Demo.called h l2 rfl (by decide), Demo.called h' k0 rfl (by decide)]
    only_verb := fun i x hx => absurd rfl (none _ ((Demo.mem h _ _ _).mp hx))
    only_copula := fun i x hx => absurd rfl (none' _ ((Demo.mem h' _ _ _).mp hx))
    negation := by decide +kernel }

example (x : STuple) : x ∈ plainFoxes.tuples ck ↔ x ∈ bakedByFoxes.tuples ck :=
  C132_same_partial (Demo.reports plainFoxes_parsed) (Demo.neat plainFoxes_parsed (by decide)) (Demo.reports bakedByFoxes_parsed)
    (Demo.neat bakedByFoxes_parsed (by decide)) foxesBake_counterparts (by decide +kernel) x

example (args : List Argument) : STuple.mk args ∈ bakedByFoxes.tuples ck ↔
    (∃ s' a, Member bakedByFoxes.tree 0 s' ∧ Noun demoLogic bakedByFoxes.tokens bakedByFoxes.tags s' a ∧
      args = [a, ⟨c!"be", c!"C", affirmed [positive bakedByFoxes.tree s', positive bakedByFoxes.tree 1, positive bakedByFoxes.tree 2]⟩,
        ⟨c!"baked", c!"L", true⟩]) ∨
    ∃ y' s' a b, Member bakedByFoxes.tree 4 y' ∧ Member bakedByFoxes.tree 0 s' ∧
      Noun demoLogic bakedByFoxes.tokens bakedByFoxes.tags y' a ∧ Noun demoLogic bakedByFoxes.tokens bakedByFoxes.tags s' b ∧
      args = [a, ⟨c!"bake", c!"T", affirmed [positive bakedByFoxes.tree y', positive bakedByFoxes.tree 2,
        positive bakedByFoxes.tree s']⟩, b] :=
  have V := foxesBake_counterparts
  C132_passive (Demo.reports bakedByFoxes_parsed) (Demo.neat bakedByFoxes_parsed (by decide)) V.passive V.copula V.be V.adjective
    V.past V.not_empty V.subjects' V.agents' args

theorem foxesDoNotBake_counterparts : Counterparts demoLogic notBaking.tokens notBaking.tags notBaking.tree 3 0 4
    notBakedByFoxes.tokens notBakedByFoxes.tags notBakedByFoxes.tree 1 0 3 5 c!"bake" c!"baked" := by
  have h := notBaking_parsed
  have h' := notBakedByFoxes_parsed
  have l0 : LemmaOf demoLogic notBaking.tokens notBaking.tags 0 c!"fox" :=
    ⟨c!"foxes", .NOUN, some .PLURAL, ⟨c!"Foxes", rfl, by decide +kernel⟩, rfl, by decide +kernel⟩
  have l1 : LemmaOf demoLogic notBaking.tokens notBaking.tags 3 c!"bake" :=
    ⟨c!"bake", .VERB, none, ⟨c!"bake", rfl, by decide +kernel⟩, rfl, by decide +kernel⟩
  have l2 : LemmaOf demoLogic notBaking.tokens notBaking.tags 4 c!"format" :=
    ⟨c!"formats", .NOUN, some .PLURAL, ⟨c!"formats", rfl, by decide +kernel⟩, rfl, by decide +kernel⟩
  have k0 : LemmaOf demoLogic notBakedByFoxes.tokens notBakedByFoxes.tags 0 c!"format" :=
    ⟨c!"formats", .NOUN, some .PLURAL, ⟨c!"Formats", rfl, by decide +kernel⟩, rfl, by decide +kernel⟩
  have k1 : LemmaOf demoLogic notBakedByFoxes.tokens notBakedByFoxes.tags 1 c!"be" :=
    ⟨c!"are", .VERB, none, ⟨c!"are", rfl, by decide +kernel⟩, rfl, by decide +kernel⟩
  have k2 : LemmaOf demoLogic notBakedByFoxes.tokens notBakedByFoxes.tags 3 c!"baked" :=
    ⟨c!"baked", .ADJ, none, ⟨c!"baked", rfl, by decide +kernel⟩, rfl, by decide +kernel⟩
  have k4 : LemmaOf demoLogic notBakedByFoxes.tokens notBakedByFoxes.tags 5 c!"fox" :=
    ⟨c!"foxes", .NOUN, some .PLURAL, ⟨c!"foxes", rfl, by decide +kernel⟩, rfl, by decide +kernel⟩
  have none : ∀ a ∈ notBaking.arcs, a.1 = .NEG → a.2.1 = 3 := by decide
  have none' : ∀ a ∈ notBakedByFoxes.arcs, a.1 = .NEG → a.2.1 = 1 := by decide
  exact {
    active := Demo.frame h (by decide)
    passive := Demo.passive (m := 4) h' ⟨by decide, by decide, by decide, by decide, by decide, by decide, by decide, by decide, by decide, by decide⟩
    verb := rfl
    copula := rfl
    noTo := Demo.noTo h (by decide)
    said := ⟨_, [], rfl, l1, Demo.noParts h (by decide), rfl⟩
    past := ⟨Demo.word h' (by decide), c!"baked", c!"bake", [], ⟨c!"baked", rfl, by decide +kernel⟩, by decide +kernel,
      Demo.noParts h' (by decide), rfl⟩
    not_empty := by decide
    not_have := by decide
    participle := ⟨_, c!"baked", [], l1, by decide +kernel, Demo.noParts h (by decide), rfl⟩
    adjective := ⟨_, [], rfl, k2, Demo.noParts h' (by decide), rfl⟩
    be := ⟨_, [], rfl, k1, Demo.noParts h' (by decide), rfl⟩
    subjects := Demo.nouns h (by decide)
    objects := Demo.nouns h (by decide)
    subjects' := Demo.nouns h' (by decide)
    agents' := Demo.nouns h' (by decide)
    not_reflexive := fun l hl => by rw [LemmaOf_unique hl l2]; decide
    same_agents := fun a => by rw [Demo.called h l0 rfl (by decide), Demo.called h' k4 rfl (by decide)]
    same_patients := fun a => by rw [Demo.called h l2 rfl (by decide), Demo.called h' k0 rfl (by decide)]
    only_verb := fun i x hx => none _ ((Demo.mem h _ _ _).mp hx) rfl
    only_copula := fun i x hx => none' _ ((Demo.mem h' _ _ _).mp hx) rfl
    negation := by decide +kernel }

/-- **C132** (negation). "Foxes do not bake formats" reports that foxes do not bake formats; "Formats are not baked by foxes" reports
that they do. -/
theorem C132_negated_false (ck : Bool) : ¬ ActivePassive ck ∧
    STuple.mk [⟨c!"fox", c!"N", true⟩, ⟨c!"bake", c!"T", false⟩, ⟨c!"format", c!"N", true⟩] ∈ notBaking.tuples ck ∧
    STuple.mk [⟨c!"fox", c!"N", true⟩, ⟨c!"bake", c!"T", true⟩, ⟨c!"format", c!"N", true⟩] ∈ notBakedByFoxes.tuples ck := by
  have k : STuple.mk [⟨c!"fox", c!"N", true⟩, ⟨c!"bake", c!"T", true⟩, ⟨c!"format", c!"N", true⟩] ∈ notBakedByFoxes.tuples ck := by
    cases ck <;> decide +kernel
  refine ⟨fun h => ?_, by cases ck <;> decide +kernel, k⟩
  have := (h _ _ _ _ _ _ _ _ _ _ _ _ _ _ _ _ _ _ (Demo.reports notBaking_parsed) (Demo.neat notBaking_parsed (by decide))
    (Demo.reports notBakedByFoxes_parsed) (Demo.neat notBakedByFoxes_parsed (by decide)) foxesDoNotBake_counterparts _).mpr k
  revert this
  cases ck <;> decide +kernel

end Props
