import Verif.Lemmas.Grounds
import Verif.Props.Clauses
import Verif.Props.Voice

/-! C127: nothing is reported that the parse does not state. -/

namespace Props
open Py Model Spec

variable {ck : Bool} {c : Logic} {tokens : List Str} {tg : List Tag} {t : Tree Dep Nat} {ts : List STuple}

/-- **C127.** In a parse where every token is a word of its own or a function word that carries nothing, every tuple of the
sentence is stated by tokens and arcs: its words are those of tokens that are connected as the tuple says, and it is negative just
when an odd number of these tokens are negated. -/
theorem C127_stated (H : Reports ck c tokens tg t ts) (T : NeatParse t) : ∀ x ∈ ts, Stated ck c tokens tg t x.args := by
  obtain ⟨h, h', nt, nodes, pos, L, A, E⟩ := H.linked
  intro x hx
  rw [E] at hx
  have aff : ∀ {k : Nat} {r : Ref}, At t nodes pos k r → (h'.node r).isAff = positive t k := fun hk => L.aff A hk.pos hk.mem
  have meant : ∀ {k : Nat} {r : Ref}, At t nodes pos k r → ¬ Embedded h' nodes r → ¬ OnlyMeant ck c tokens tg t k :=
    fun hk he k => he (L.onlyMeant A hk.pos k)
  generalize x.args = args at hx
  cases hx with
  | clauseIntr h1 h2 h3 h4 h5 h6 h7 =>
    obtain ⟨s, v, o, hs, hv, ho, hc⟩ := L.hasClause A T h1
    obtain ⟨n', s', hs', ha⟩ := L.actsIn A T hs ho h2 h1.2.2.2.1
    rw [aff hs, aff hv, aff hs', aff ho]
    exact .clauseIntr hc ha (L.predicate A T ho h1.2.2.2.2.2 h3) (L.lacksObj T ho fun x hx => by rw [← A.objs, h4] at hx; cases hx) h5
      (L.named A T hs h1.2.2.2.1 h6) (L.named A T hs' n' h7)
  | clauseTrans h1 h2 h3 h4 h5 h6 h7 h8 =>
    obtain ⟨s, v, o, hs, hv, ho, hc⟩ := L.hasClause A T h1
    obtain ⟨n', s', hs', ha⟩ := L.actsIn A T hs ho h2 h1.2.2.2.1
    rw [A.objs] at h4
    obtain ⟨o', ho', hu⟩ := L.undergoes T ho h4
    rw [aff hs, aff hv, aff hs', aff ho, aff ho']
    exact .clauseTrans hc ha (L.predicate A T ho h1.2.2.2.2.2 h3) hu
      (L.named A T hs h1.2.2.2.1 h6) (L.named A T hs' n' h7) (L.named A T ho' h5 h8)
  | clauseProp h1 h2 h3 h4 h5 h6 =>
    obtain ⟨s, v, o, hs, hv, ho, hc⟩ := L.hasClause A T h1
    obtain ⟨n', s', hs', ha⟩ := L.actsIn A T hs ho h2 h1.2.2.2.1
    rw [A.props] at h3
    obtain ⟨p, hp, hu⟩ := L.hangs T ho (by decide) h3
    rw [aff hs, aff hv, aff hs', aff ho, aff hp]
    exact .clauseProp hc ha hu (L.named A T hs h1.2.2.2.1 h4) (L.named A T hs' n' h5) (L.givenProp A T hp h6)
  | intr h1 h2 h3 h4 h5 h6 h7 h8 =>
    obtain ⟨v, hv⟩ := L.at_mem T h1
    rw [A.subjs] at h6
    obtain ⟨s, hs, ha⟩ := L.acts T hv h6
    rw [aff hs, aff hv]
    exact .intr (L.clauseHead A T hv h3) (meant hv h2) ha (L.lacksObj T hv fun x hx => by rw [← A.objs, h4] at hx; cases hx) h5
      (L.named A T hs h7 h8)
  | trans h1 h2 h3 h4 h5 h6 h7 h8 h9 =>
    obtain ⟨v, hv⟩ := L.at_mem T h1
    rw [A.subjs] at h4
    rw [A.objs] at h6
    obtain ⟨s, hs, ha⟩ := L.acts T hv h4
    obtain ⟨o, ho, hu⟩ := L.undergoes T hv h6
    rw [aff hs, aff hv, aff ho]
    exact .trans (L.clauseHead A T hv h3) (meant hv h2) ha hu (L.named A T hs h5 h8) (L.named A T ho h7 h9)
  | recip h1 h2 h3 h4 h5 h6 h7 h8 h9 =>
    obtain ⟨v, hv⟩ := L.at_mem T h1
    rw [A.subjs] at h4
    rw [A.iobjs] at h6
    obtain ⟨s, hs, ha⟩ := L.acts T hv h4
    obtain ⟨o, ho, hu⟩ := L.hangs T hv (by decide) h6
    rw [aff hs, aff hv, aff ho]
    exact .recip (L.clauseHead A T hv h3) (meant hv h2) ha hu (L.named A T hs h5 h8) (L.named A T ho h7 h9)
  | @passive rv ro a h1 h2 h3 h4 h5 h6 h7 =>
    obtain ⟨v, hv⟩ := L.at_mem T h1
    rw [A.objs] at h5
    obtain ⟨o, ho, hu⟩ := L.undergoes T hv h5
    rw [aff hv, aff ho]
    refine .passive (L.predicate A T hv h2 h3) h4 hu (L.participleOf A hv) (L.named A T ho h6 h7) ?_
    unfold subjPolarity
    split
    · rename_i e
      exact Or.inl ⟨rfl, L.lacksSubj T hv fun x hx => by rw [← A.subjs, e] at hx; cases hx⟩
    · rename_i e
      right
      by_cases hp : ∃ s ∈ (h'.node rv).subjs, (h'.node s).isAff = true
      · obtain ⟨rs, m1, m2⟩ := hp
        have m1' := m1
        rw [A.subjs] at m1'
        obtain ⟨s, hs, ha⟩ := L.acts T hv m1'
        refine ⟨s, ha, ?_⟩
        rw [← aff hs, m2, decide_eq_true ⟨rs, m1, m2⟩]
      · obtain ⟨rs, m1⟩ := List.exists_mem_of_ne_nil _ e
        have m2 : (h'.node rs).isAff = false := by
          by_contra k
          exact hp ⟨rs, m1, by simpa using k⟩
        have m1' := m1
        rw [A.subjs] at m1'
        obtain ⟨s, hs, ha⟩ := L.acts T hv m1'
        refine ⟨s, ha, ?_⟩
        rw [← aff hs, m2, decide_eq_false hp]
  | @indirect rn rs rv rp a b h1 h2 h3 h4 h5 h6 =>
    rw [A.svis] at h3
    obtain ⟨node, obj, g1, g2, g3, g4, g5, g6⟩ := h3
    obtain ⟨q, hq⟩ := L.at_mem T g1
    obtain ⟨v, hv, v2⟩ := L.up T g2 hq.pos (by decide)
    obtain ⟨o, ho, o2⟩ := L.firstChild T g3 hv.pos (by decide)
    obtain ⟨n, hn, n2⟩ := L.member T ho g5
    obtain ⟨p, hp, p2⟩ := L.member T hq g6
    rw [aff hv, aff hn, aff hp]
    refine .indirect ⟨o, o2, n2⟩ ⟨q, v2, p2⟩ (L.participleOf A hv) ?_ (L.named A T hn h2 h5) (L.givenProp A T hp h6)
    cases rs with
    | none =>
      refine Or.inl ⟨rfl, L.lacks hv.pos (by decide) ?_⟩
      rintro ⟨x, hx⟩
      rw [← L.viaMem] at hx
      rw [eq_comm, List.head?_eq_none_iff] at g4
      rw [g4] at hx; cases hx
    | some rs =>
      obtain ⟨s, hs, s2⟩ := L.firstChild T (show FirstChild nt rv .SUBJ rs from g4.symm) hv.pos (by decide)
      exact Or.inr ⟨s, s2, by simp [aff hs]⟩
  | copula h1 h2 h3 h4 h5 h6 =>
    rw [A.copulas] at h3
    obtain ⟨n, v, p, hn, hv, hp, hl⟩ := L.linking T h3
    have hw := L.writtenAs T hv
    rw [← (ArgsFound_keeps A _).2.1] at hw
    rw [aff hn, aff hv, aff hp]
    exact .copula hl hw (L.named A T hn h2 h5) (L.givenProp A T hp h6)
  | copulaActive h1 h2 h3 h4 h5 h6 h7 h8 h9 =>
    rw [A.copulas] at h3
    obtain ⟨n, v, p, hn, hv, hp, hl⟩ := L.linking T h3
    rw [A.agents] at h6
    obtain ⟨x, hx, ha⟩ := L.agents T hp h6
    rw [aff hn, aff hx, aff hp]
    exact .copulaActive hl (L.activeWord A hp h5) ha (L.named A T hx h7 h8) (L.named A T hn h2 h9)
  | participle h1 h2 h3 h4 h5 h6 =>
    rw [A.pps] at h3
    obtain ⟨rx, g1, g2, g3, g4, g5, g6, g7, g8⟩ := h3
    obtain ⟨q, hq⟩ := L.at_mem T g1
    obtain ⟨n, hn, n2⟩ := L.up T g2 hq.pos (by decide)
    obtain ⟨y, hy, y2⟩ := L.firstChild T g6 hq.pos (by decide)
    obtain ⟨p, hp, p2⟩ := L.member T hy g8
    have hw := L.writtenAs T hq
    rw [← (ArgsFound_keeps A _).2.1, g4] at hw
    rw [aff hn, aff hq, aff hp]
    obtain ⟨r', s, tag, l, x, k1, k2, k3, k4, k5, k6, k7, k8, k9, k10, k11⟩ := L.word hq.word
    cases L.fn k1 hq.pos
    obtain ⟨l', x', m1, m2, -⟩ := k11 g4
    rw [g7] at m2
    subst m2
    exact .participle n2 (L.lacks hq.pos (by decide) g3) hw ⟨hq.word, s, l', _, k3, m1, k7, rfl⟩ ⟨y, y2, p2⟩ (L.named A T hn h2 h5)
      (L.givenProp A T hp h6)
  | adjective h1 h2 h3 h4 h5 =>
    rw [A.adjs] at h3
    obtain ⟨n, hn⟩ := L.at_mem T h1
    obtain ⟨p, hp, hd⟩ := L.describes T hn h3
    rw [aff hn, aff hp]
    exact .adjective hd (L.named A T hn h2 h4) (L.givenAdj A T hp h5)
  | adjectiveActive h1 h2 h3 h4 h5 h6 h7 h8 =>
    rw [A.adjs] at h3
    rw [A.agents] at h5
    obtain ⟨n, hn⟩ := L.at_mem T h1
    obtain ⟨p, hp, hd⟩ := L.describes T hn h3
    obtain ⟨x, hx, ha⟩ := L.agents T hp h5
    rw [aff hn, aff hp, aff hx]
    exact .adjectiveActive hd (L.activeWord A hp h4) ha (L.named A T hx h6 h7) (L.named A T hn h2 h8)

/-- **C127.** A transitive statement has a verb with the first argument among those who act and the second among those who undergo, or
a past participle with the first argument after "by", that describes the second or is said of it. -/
theorem C127_transitive (H : Reports ck c tokens tg t ts) (T : NeatParse t) {a b : Argument} {w : Str} {pol : Bool}
    (hx : STuple.mk [a, ⟨w, c!"T", pol⟩, b] ∈ ts) :
    ∃ s v o, Named ck c tokens tg t s a ∧ Named ck c tokens tg t o b ∧ pol = affirmed [positive t s, positive t v, positive t o] ∧
      ((SaidBy c tokens tg t v w ∧ Acts ck c tokens tg t v s ∧ Undergoes ck c tokens tg t v o) ∨
        (PastForm c tokens t v w ∧ Agent c tokens t v s ∧ (Describes c tokens tg t o v ∨ ∃ q, Linking ck c tokens tg t o q v))) := by
  have := C127_stated H T _ hx
  generalize hl : [a, (⟨w, c!"T", pol⟩ : Argument), b] = l at this
  cases this with
  | clauseIntr | clauseTrans | clauseProp | intr | recip => simp at hl
  | passive | indirect | copula | participle | adjective => simp at hl
  | @trans s v o w' _ _ h1 h2 h3 h4 h5 h6 =>
    simp at hl
    obtain ⟨rfl, ⟨rfl, rfl⟩, rfl⟩ := hl
    exact ⟨s, v, o, h5, h6, rfl, Or.inl ⟨h1.said, h3, h4⟩⟩
  | @copulaActive n v p w' x _ _ h1 h2 h3 h4 h5 =>
    simp at hl
    obtain ⟨rfl, ⟨rfl, rfl⟩, rfl⟩ := hl
    exact ⟨x, p, n, h4, h5, rfl, Or.inr ⟨h2.2, h3, Or.inr ⟨v, h1⟩⟩⟩
  | @adjectiveActive n p w' x _ _ h1 h2 h3 h4 h5 =>
    simp at hl
    obtain ⟨rfl, ⟨rfl, rfl⟩, rfl⟩ := hl
    exact ⟨x, p, n, h4, h5, rfl, Or.inr ⟨h2.2, h3, Or.inl h1⟩⟩

/-- **C127.** An intransitive statement has a verb without object, with the argument among those who act. -/
theorem C127_intransitive (H : Reports ck c tokens tg t ts) (T : NeatParse t) {a : Argument} {w : Str} {pol : Bool}
    (hx : STuple.mk [a, ⟨w, c!"I", pol⟩] ∈ ts) :
    ∃ s v, Named ck c tokens tg t s a ∧ ClauseHead c tokens tg t v w ∧ Acts ck c tokens tg t v s ∧ Lacks t v .OBJ ∧
      ¬ OnlyMeant ck c tokens tg t v ∧ pol = affirmed [positive t s, positive t v] := by
  have := C127_stated H T _ hx
  generalize hl : [a, (⟨w, c!"I", pol⟩ : Argument)] = l at this
  cases this with
  | clauseIntr | clauseTrans | clauseProp | trans | recip | passive | indirect | copula | participle | adjective | copulaActive
  | adjectiveActive => simp at hl
  | @intr s v w' _ h1 h2 h3 h4 h5 h6 =>
    simp at hl
    obtain ⟨rfl, rfl, rfl⟩ := hl
    exact ⟨s, v, h6, h1, h3, h4, h2, rfl⟩

/-- **C127.** A parse without subjects, objects and complements states nothing. -/
theorem C127_silent (H : Reports ck c tokens tg t ts) (T : NeatParse t)
    (hs : ∀ d p x, (d, x) ∈ t.children p → d ≠ .SUBJ ∧ d ≠ .OBJ ∧ d ≠ .CPL) : ts = [] := by
  have acts : ∀ {v s}, ¬ Acts ck c tokens tg t v s := by
    rintro v s ⟨v', s', h, -⟩
    cases h with
    | own h => exact (hs _ _ _ h).1 rfl
    | relative h => exact (hs _ _ _ h.1).1 rfl
    | self h => exact (hs _ _ _ h).1 rfl
    | marked h => exact (hs _ _ _ h).2.2 rfl
  have undergoes : ∀ {v s}, ¬ Undergoes ck c tokens tg t v s := by
    rintro v s ⟨v', s', h, -⟩
    cases h with
    | own h => exact (hs _ _ _ h).2.1 rfl
    | relative h => exact (hs _ _ _ h.1).2.1 rfl
    | self h => exact (hs _ _ _ h).2.1 rfl
    | bare h => exact (hs _ _ _ h).2.2 rfl
  have linking : ∀ {n v p}, ¬ Linking ck c tokens tg t n v p := by
    rintro n v p ⟨-, -, s, -, h | ⟨i, h⟩⟩
    · exact (hs _ _ _ h).1 rfl
    · exact (hs _ _ _ h.1).1 rfl
  have describes : ∀ {n p}, ¬ Describes c tokens tg t n p := by
    rintro n p ⟨q, -, -, ⟨h, -⟩ | ⟨h, -⟩⟩ <;> exact (hs _ _ _ h).2.2 rfl
  by_contra hne
  obtain ⟨x, hx⟩ := List.exists_mem_of_ne_nil _ hne
  have := C127_stated H T x hx
  generalize x.args = args at this
  cases this with
  | clauseIntr h | clauseTrans h | clauseProp h => exact acts h.acts
  | intr _ _ h | trans _ _ h | recip _ _ h => exact acts h
  | passive _ _ h => exact undergoes h
  | indirect h => obtain ⟨y, h, -⟩ := h; exact (hs _ _ _ h).2.1 rfl
  | copula h | copulaActive h => exact linking h
  | participle h => exact (hs _ _ _ h).2.2 rfl
  | adjective h | adjectiveActive h => exact describes h

/-! ### Examples -/

abbrev Demo.IsNeat (d : Demo) : Prop := ∀ b ∈ d.arcs, ∀ k ∈ [b.2.1, b.2.2], d.IsWord k ∨
  (∀ a ∈ d.arcs, a.2.1 ≠ k) ∧ ∃ a ∈ d.arcs, a.2.2 = k ∧ a.1 ∈ functional ∧ d.IsWord a.2.1

theorem Demo.neat {d : Demo} (h : d.Parsed) (k : d.IsNeat) : NeatParse d.tree := by
  intro i hi
  have : d.IsWord i ∨ (∀ a ∈ d.arcs, a.2.1 ≠ i) ∧ ∃ a ∈ d.arcs, a.2.2 = i ∧ a.1 ∈ functional ∧ d.IsWord a.2.1 := by
    rcases hi with ⟨l, x, q⟩ | ⟨l, x, q⟩
    · exact k _ ((Demo.mem h _ _ _).mp q) i (by simp)
    · exact k _ ((Demo.mem h _ _ _).mp q) i (by simp)
  rcases this with q | ⟨q, ⟨l, p, x⟩, h1, rfl, h3, h4⟩
  · exact Or.inl (Demo.word h q)
  · refine Or.inr ⟨?_, l, p, h3, (Demo.mem h _ _ _).mpr h1, Demo.word h h4⟩
    rw [List.eq_nil_iff_forall_not_mem]
    rintro ⟨l', y⟩ hy
    exact q _ ((Demo.mem h _ _ _).mp hy) rfl

example : NeatParse bakedFoxes.tree := Demo.neat bakedFoxes_parsed (by decide)
example : NeatParse wanting.tree := Demo.neat wanting_parsed (by decide)
example : NeatParse notWanting.tree := Demo.neat notWanting_parsed (by decide)
example : NeatParse bakedFormats.tree := Demo.neat bakedFormats_parsed (by decide)
example : NeatParse noFoxes.tree := Demo.neat noFoxes_parsed (by decide)

/-- "Foxes who bake themselves are not baked by formats" reports "format bake fox", after "by". -/
example : ∃ s v o, Named ck demoLogic bakedFoxes.tokens bakedFoxes.tags bakedFoxes.tree s ⟨c!"format", c!"N", true⟩ ∧
    Named ck demoLogic bakedFoxes.tokens bakedFoxes.tags bakedFoxes.tree o ⟨c!"fox", c!"N", true⟩ ∧
    true = affirmed [positive bakedFoxes.tree s, positive bakedFoxes.tree v, positive bakedFoxes.tree o] ∧
      ((SaidBy demoLogic bakedFoxes.tokens bakedFoxes.tags bakedFoxes.tree v c!"bake" ∧
        Acts ck demoLogic bakedFoxes.tokens bakedFoxes.tags bakedFoxes.tree v s ∧
        Undergoes ck demoLogic bakedFoxes.tokens bakedFoxes.tags bakedFoxes.tree v o) ∨
      (PastForm demoLogic bakedFoxes.tokens bakedFoxes.tree v c!"bake" ∧ Agent demoLogic bakedFoxes.tokens bakedFoxes.tree v s ∧
        (Describes demoLogic bakedFoxes.tokens bakedFoxes.tags bakedFoxes.tree o v ∨
          ∃ q, Linking ck demoLogic bakedFoxes.tokens bakedFoxes.tags bakedFoxes.tree o q v))) :=
  C127_transitive (Demo.reports bakedFoxes_parsed) (Demo.neat bakedFoxes_parsed (by decide)) (by cases ck <;> decide +kernel)

/-- "No foxes and formats" -/
def noStatement : Demo where
  tokens := [c!"No", c!"foxes", c!"and", c!"formats"]
  tags := [.DET, .NOUN, .CONJ, .NOUN]
  deps := [.NEG, .ROOT, .NODEP, .AND]
  trans := [(0, 1, .LEFT), (1, 3, .RIGHT)]
  root := 1
  arcs := [(.NEG, 1, 0), (.AND, 1, 3)]

theorem noStatement_parsed : noStatement.Parsed := by decide +kernel

example : noStatement.tuples ck = [] :=
  C127_silent (Demo.reports noStatement_parsed) (Demo.neat noStatement_parsed (by decide)) fun d p x h => by
    rw [Demo.mem noStatement_parsed] at h
    have : ∀ a ∈ noStatement.arcs, a.1 ≠ .SUBJ ∧ a.1 ≠ .OBJ ∧ a.1 ≠ .CPL := by decide
    exact this _ h

end Props
