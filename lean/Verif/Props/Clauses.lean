import Verif.Lemmas.Clauses
import Verif.Props.Statements

/-! C108: clauses as objects, properties of objects and participles are reported. -/

namespace Props
open Py Model Spec

variable {c : Logic} {tokens : List Str} {tg : List Tag} {t : Tree Dep Nat} {ts : List STuple}

/-- **C108.** "People want children to sing songs": for every member of the coordinated subjects, clauses, their subjects and
their objects. -/
theorem C108_clause_transitive (H : Reports ck c tokens tg t ts) {v s s' o₀ o x' z z' : Nat} {w u : Str} {a₀ a a' b₀ b : Argument}
    (hv : Main c tokens tg t v) (hw : SaidBy c tokens tg t v w) (hs : Stands ck c tokens tg t .SUBJ v s s' a₀ a)
    (hrel : (∃ n, (.CPL, v) ∈ t.children n) → a₀.word ∉ relatives) (ho : ObjClause c tokens tg t v o₀ o u)
    (hx : ClauseSinger ck c tokens tg t v o₀ o s' a x' a') (hz : Stands ck c tokens tg t .OBJ o z z' b₀ b) (hrefl : b₀.word ∉ reflexives)
    (plain : ∀ d x, (d, x) ∈ t.children o → d ≠ .PROP ∧ d ≠ .IPROP ∧ d ≠ .EXIST) :
    STuple.mk [a, ⟨w, c!"T", affirmed [positive t s', positive t v, positive t x', positive t o, positive t z']⟩,
      a', ⟨u, c!"T", true⟩, b] ∈ ts := by
  obtain ⟨h, h', nt, nodes, pos, L, A, E⟩ := H.linked
  obtain ⟨rv, V, hh, he, -⟩ := L.main A hv hw
  obtain ⟨r, R, hr, -⟩ := L.subj A V.pos (fun p hp => (hv.free _ _ hp).2.1 rfl) hs hrel
  obtain ⟨q₀, q, u₀, Q₀, Q, hq₀, -, hq⟩ := L.objClause A V.pos ho
  obtain ⟨y, Y, hy⟩ := L.clauseSubj A ho V.pos V.tag hq₀ Q₀.pos Q₀.mem Q.pos R hx
  obtain ⟨k, K, hk⟩ := L.obj A Q.pos hz (fun ⟨n, k⟩ => by
    rcases (ObjClause.label L ho).2 _ _ k with ⟨e, -⟩ | ⟨e | e, -⟩ <;> cases e) hrefl
  rw [E]
  have := Said.clauseTrans (pp := c.pp) ⟨V.mem, hh, hr, R.nominal', hq, Q.tag'⟩ hy (L.plain A Q.pos plain) hk K.nominal' R.isNoun
    Y.isNoun K.isNoun
  rw [V.canon', Q.canon', R.aff, V.aff, Y.aff, Q.aff, K.aff] at this
  exact this

/-- **C108.** "People want children to sing". -/
theorem C108_clause_intransitive (H : Reports ck c tokens tg t ts) {v s s' o₀ o x' : Nat} {w u : Str} {a₀ a a' : Argument}
    (hv : Main c tokens tg t v) (hw : SaidBy c tokens tg t v w) (hs : Stands ck c tokens tg t .SUBJ v s s' a₀ a)
    (hrel : (∃ n, (.CPL, v) ∈ t.children n) → a₀.word ∉ relatives) (ho : ObjClause c tokens tg t v o₀ o u)
    (hx : ClauseSinger ck c tokens tg t v o₀ o s' a x' a') (no : ∀ x, (.OBJ, x) ∉ t.children o) (no₀ : ∀ x, (.OBJ, x) ∉ t.children o₀)
    (haux : u ∉ [c!"have", c!"get", c!"be", c!"do"])
    (plain : ∀ d x, (d, x) ∈ t.children o → d ≠ .PROP ∧ d ≠ .IPROP ∧ d ≠ .EXIST) :
    STuple.mk [a, ⟨w, c!"T", affirmed [positive t s', positive t v, positive t x', positive t o]⟩, a', ⟨u, c!"I", true⟩] ∈ ts := by
  obtain ⟨h, h', nt, nodes, pos, L, A, E⟩ := H.linked
  obtain ⟨rv, V, hh, he, -⟩ := L.main A hv hw
  obtain ⟨r, R, hr, -⟩ := L.subj A V.pos (fun p hp => (hv.free _ _ hp).2.1 rfl) hs hrel
  obtain ⟨q₀, q, u₀, Q₀, Q, hq₀, -, hq⟩ := L.objClause A V.pos ho
  obtain ⟨y, Y, hy⟩ := L.clauseSubj A ho V.pos V.tag hq₀ Q₀.pos Q₀.mem Q.pos R hx
  rw [E]
  have := Said.clauseIntr (pp := c.pp) ⟨V.mem, hh, hr, R.nominal', hq, Q.tag'⟩ hy (L.plain A Q.pos plain)
    (L.clauseNoObj A ho Q.pos no no₀) (by rw [Q.canon']; exact haux) R.isNoun Y.isNoun
  rw [V.canon', Q.canon', R.aff, V.aff, Y.aff, Q.aff] at this
  exact this

/-- **C108.** "People want children to be happy". -/
theorem C108_clause_property (H : Reports ck c tokens tg t ts) {v s s' o₀ o x' p p' : Nat} {w u : Str} {a₀ a a' b : Argument}
    (hv : Main c tokens tg t v) (hw : SaidBy c tokens tg t v w) (hs : Stands ck c tokens tg t .SUBJ v s s' a₀ a)
    (hrel : (∃ n, (.CPL, v) ∈ t.children n) → a₀.word ∉ relatives) (ho : ObjClause c tokens tg t v o₀ o u)
    (hx : ClauseSinger ck c tokens tg t v o₀ o s' a x' a') (hp : (.PROP, p) ∈ t.children o) (wp : Word t p) (hm : Member t p p')
    (wp' : Word t p') (hb : Property ck c tokens tg t p' b) :
    STuple.mk [a, ⟨w, c!"T", affirmed [positive t s', positive t v, positive t x', positive t o, positive t p']⟩,
      a', ⟨u, c!"C", true⟩, b] ∈ ts := by
  obtain ⟨h, h', nt, nodes, pos, L, A, E⟩ := H.linked
  obtain ⟨rv, V, hh, he, -⟩ := L.main A hv hw
  obtain ⟨r, R, hr, -⟩ := L.subj A V.pos (fun p hp => (hv.free _ _ hp).2.1 rfl) hs hrel
  obtain ⟨q₀, q, u₀, Q₀, Q, hq₀, -, hq⟩ := L.objClause A V.pos ho
  obtain ⟨y, Y, hy⟩ := L.clauseSubj A ho V.pos V.tag hq₀ Q₀.pos Q₀.mem Q.pos R hx
  obtain ⟨k, -, -, -, -, k1, k2, -⟩ := L.word wp
  obtain ⟨k', K⟩ := L.property A wp' hb
  have hk : k' ∈ (h'.node q).props := (A.props _ _).mpr ⟨k, k2, L.parent wp Q.pos k1 hp, L.group k1 k2 K.pos hm⟩
  rw [E]
  have := Said.clauseProp (pp := c.pp) ⟨V.mem, hh, hr, R.nominal', hq, Q.tag'⟩ hy hk R.isNoun Y.isNoun K.isProp
  rw [V.canon', Q.canon', R.aff, V.aff, Y.aff, Q.aff, K.aff] at this
  exact this

/-- **C108.** "People call him John": the property is said of every member of the only object with the past participle of the
verb. -/
theorem C108_indirect (H : Reports ck c tokens tg t ts) {v o o' p p' : Nat} {w l q : Str} {ps : List Str} {a₀ a b : Argument}
    {pol : List Bool} (hv : Word t v) (hw : SaidBy c tokens tg t v w) (ho : Stands ck c tokens tg t .OBJ v o o' a₀ a)
    (hone : ∀ x, (.OBJ, x) ∈ t.children v → x = o) (hp : (.IPROP, p) ∈ t.children v) (wp : Word t p) (hm : Member t p p')
    (wp' : Word t p') (hb : Property ck c tokens tg t p' b) (hpol : SubjectPolarity t v pol)
    (hl : LemmaOf c tokens tg v l) (hps : PartWords c.lower tokens (t.children v) v ps)
    (hq : Model.pastParticiple c.lemmatizer.lm [[]] c.reversedPps l = .ok q) :
    STuple.mk [a, ⟨c!"be " ++ List.intercalate c!" " (q :: ps), c!"C",
      affirmed (pol ++ [positive t v, positive t o', positive t p'])⟩, b] ∈ ts := by
  obtain ⟨h, h', nt, nodes, pos, L, A, E⟩ := H.linked
  obtain ⟨rv, V, l1, l2, -⟩ := L.verb A hv hw
  obtain ⟨r, r', R, R', -, hg⟩ := L.stands A V.pos ho (by simp)
  obtain ⟨k, -, -, -, -, k1, k2, -⟩ := L.word wp
  obtain ⟨k', K⟩ := L.property A wp' hb
  have hk : ((nt.childrenVia rv .SUBJ).head?, rv, k') ∈ (h'.node r').subjsVerbsIprops := (A.svis _ _ _ _).mpr
    ⟨k, r, k2, L.parent wp V.pos k1 hp, L.first V.pos R.pos ho.arc hone, rfl, hg, L.group k1 k2 K.pos hm⟩
  rw [E]
  have := Said.indirect (pp := c.pp) R'.mem R'.nominal' hk K.tag' R'.isNoun K.isProp
  have e2 : Spec.pastParticiple c.pp h' rv = List.intercalate c!" " (q :: ps) := by
    unfold Spec.pastParticiple
    rw [join_eq_intercalate, PartWords_unique l2 hps, LemmaOf_unique l1 hl]
    have := c.pp_eq l
    rw [hq] at this
    rw [← Except.ok.inj this]
  rw [e2, V.aff, R'.aff, K.aff, L.subjectPolarity A V.pos hpol] at this
  exact this

/-- **C108.** "Songs called ballads": the only property of a past participle attached to a noun, and those coordinated to it, are
said of the noun with the participle. -/
theorem C108_participle (H : Reports ck c tokens tg t ts) {n x p p' : Nat} {l : Str} {a d b : Argument} (hn : Word t n)
    (ha : Called ck c tokens tg t n a) (hx : (.CPL, x) ∈ t.children n) (wx : Word t x) (hd : PastOf c tokens tg t x d l)
    (hmark : ∀ y, (.MARK, y) ∉ t.children x) (hp : Only t .PROP x p) (wp : Word t p) (hm : Member t p p')
    (wp' : Word t p') (hb : Property ck c tokens tg t p' b) :
    STuple.mk [a, ⟨c!"be " ++ d.word, c!"C", affirmed [positive t n, positive t x, positive t p']⟩, b] ∈ ts := by
  obtain ⟨h, h', nt, nodes, pos, L, A, E⟩ := H.linked
  obtain ⟨r, R⟩ := L.noun A hn ha (Or.inl (Or.inr ⟨_, _, hx, by simp, by simp⟩))
  obtain ⟨q, Q, hsuf, -⟩ := L.pastOf A wx hd
  obtain ⟨k, -, -, -, -, k1, k2, -⟩ := L.word wp
  obtain ⟨k', K⟩ := L.property A wp' hb
  have hk : (q, k') ∈ (h'.node r).ppsProps := by
    rw [A.pps]
    refine ⟨k, Q.mem, L.parent wx R.pos Q.pos hx, ?_, Q.tag, R.nominal, L.only Q.pos k1 hp, hsuf, L.group k1 k2 K.pos hm⟩
    rintro ⟨y, e⟩
    obtain ⟨z, -, e'⟩ := L.child Q.pos e
    exact hmark _ e'
  rw [E]
  have := Said.participle (pp := c.pp) R.mem R.nominal' hk K.tag' R.isNoun K.isProp
  rw [← Q.isAdj.1, R.aff, Q.aff, K.aff] at this
  exact this

/-- **C108.** "Songs sung by people": the active form is reported of a noun with a past participle. -/
theorem C108_participle_agent (H : Reports ck c tokens tg t ts) {n x y y' : Nat} {l : Str} {ps : List Str} {a d e₀ e : Argument}
    (hn : Word t n) (ha : Called ck c tokens tg t n a) (hx : (.CPL, x) ∈ t.children n) (wx : Word t x)
    (hd : PastOf c tokens tg t x d l) (hmark : ∀ y, (.MARK, y) ∉ t.children x) (hne : l ≠ [])
    (hps : PartWords c.lower tokens (t.children x) x ps) (hy : Stands ck c tokens tg t .CPL x y y' e₀ e) (hby : MarkedBy c tokens t y) :
    STuple.mk [e, ⟨List.intercalate c!" " (l :: ps), c!"T", affirmed [positive t y', positive t x, positive t n]⟩, a] ∈ ts := by
  obtain ⟨h, h', nt, nodes, pos, L, A, E⟩ := H.linked
  obtain ⟨r, R⟩ := L.noun A hn ha (Or.inl (Or.inr ⟨_, _, hx, by simp, by simp⟩))
  obtain ⟨q, Q, -, q1, q2⟩ := L.pastOf A wx hd
  rw [PartWords_unique q1 hps] at q2
  have hpar := L.parent wx R.pos Q.pos hx
  obtain ⟨k, K, hk⟩ := L.agent A Q.pos (Or.inr hpar) hy hby
  have hq : q ∈ (h'.node r).adjs := by
    rw [A.adjs]
    refine Or.inl ⟨q, Q.mem, hpar, ?_, Q.tag, Or.inl rfl⟩
    rintro ⟨y, e⟩
    obtain ⟨z, -, e'⟩ := L.child Q.pos e
    exact hmark _ e'
  have hw' : ActiveVerb (h'.node q) (List.intercalate c!" " (l :: ps)) := by
    refine ⟨q2, ?_⟩
    rw [← join_eq_intercalate]
    cases ps with
    | nil => simpa [join] using hne
    | cons p ps => simp [join]
  rw [E]
  have := Said.adjectiveActive (pp := c.pp) R.mem R.nominal' hq hw' hk K.nominal' K.isNoun R.isNoun
  rw [K.aff, Q.aff, R.aff] at this
  exact this

/-- **C108.** "People earn money by singing songs": a complement verb with a marker and no subject has the only subject of the
verb above and the nouns coordinated to it. -/
theorem C108_marked (H : Reports ck c tokens tg t ts) {v v' s s' o o' m : Nat} {w w' : Str} {a₀ a b₀ b : Argument}
    (hv : Word t v) (hw : SaidBy c tokens tg t v w) (hs : Stands ck c tokens tg t .SUBJ v s s' a₀ a)
    (hone : ∀ x, (.SUBJ, x) ∈ t.children v → x = s) (hcpl : (.CPL, v') ∈ t.children v) (hv' : Main c tokens tg t v')
    (hw' : SaidBy c tokens tg t v' w') (hm : (.MARK, m) ∈ t.children v') (hmf : ∀ y, (.FLAT, y) ∉ t.children m)
    (hno : ∀ x, (.SUBJ, x) ∉ t.children v') (ho : Stands ck c tokens tg t .OBJ v' o o' b₀ b) (hrel : b₀.word ∉ relatives)
    (hrefl : b₀.word ∉ reflexives) :
    STuple.mk [a, ⟨w', c!"T", affirmed [positive t s', positive t v', positive t o']⟩, b] ∈ ts := by
  obtain ⟨h, h', nt, nodes, pos, L, A, E⟩ := H.linked
  obtain ⟨rv, V, -⟩ := L.verb A hv hw
  obtain ⟨rv', V', hh, he, -⟩ := L.main A hv' hw'
  obtain ⟨r, r', R, R', -, hg⟩ := L.stands A V.pos hs (by simp)
  obtain ⟨q, Q, hq⟩ := L.obj A V'.pos ho (fun _ => hrel) hrefl
  obtain ⟨rm, -, m1, -⟩ := L.marker V'.pos hm hmf
  have hr : r' ∈ (h'.node rv').subjs := by
    rw [A.subjs]
    refine Or.inr ⟨rv', rv, r, V'.mem, L.parent hv'.toWord V.pos V'.pos hcpl, ⟨rm, L.arc.mpr ⟨_, _, V'.pos, m1, hm⟩⟩, V'.tag, ?_,
      V.tag, L.first V.pos R.pos hs.arc hone, hg, Or.inl rfl⟩
    rintro ⟨x, k⟩
    obtain ⟨y, -, k'⟩ := L.child V'.pos k
    exact hno _ k'
  rw [E]
  have := Said.trans (pp := c.pp) V'.mem he hh hr R'.nominal' hq Q.nominal' R'.isNoun Q.isNoun
  rw [V'.canon', R'.aff, V'.aff, Q.aff] at this
  exact this

/-! ### C109 -/

/-- **C109.** In a parse where every token is a word of its own or a function word of one, the verb of every tuple with a
transitive, intransitive or recipient verb and no clause is a verb of the sentence that is not only meant (wanted, said) or,
for transitive verbs, the verb of a past form. -/
theorem C109_verb_source (H : Reports ck c tokens tg t ts) (C : Clean t) {a : Argument} {w k : Str} {pol : Bool} {rest : List Argument}
    (hk : k = c!"I" ∨ k = c!"T" ∨ k = c!"R") (hrest : rest.length ≤ 1) (hx : STuple.mk (a :: ⟨w, k, pol⟩ :: rest) ∈ ts) :
    (∃ v, Word t v ∧ SaidBy c tokens tg t v w ∧ ¬ OnlyMeant ck c tokens tg t v) ∨ (k = c!"T" ∧ ∃ p, PastForm c tokens t p w) := by
  obtain ⟨h, h', nt, nodes, pos, L, A, E⟩ := H.linked
  rw [E] at hx
  have key : ∀ {r : Ref}, r ∈ nodes → ¬ Embedded h' nodes r → Heads h' r → (h'.node r).canon = w →
      ∃ v, Word t v ∧ SaidBy c tokens tg t v w ∧ ¬ OnlyMeant ck c tokens tg t v := by
    intro r hr he hh hw
    obtain ⟨v, hv, wv, sv⟩ := L.verbOf A C hr hh.1
    rw [hw] at sv
    exact ⟨v, wv, sv, fun k => he (L.onlyMeant A hv k)⟩
  generalize hl : a :: (⟨w, k, pol⟩ : Argument) :: rest = l at hx
  cases hx with
  | clauseIntr | clauseTrans | clauseProp => simp at hl; obtain ⟨-, -, rfl⟩ := hl; simp at hrest
  | intr h1 h2 h3 => simp at hl; exact Or.inl (key h1 h2 h3 hl.2.1.1.symm)
  | trans h1 h2 h3 => simp at hl; exact Or.inl (key h1 h2 h3 hl.2.1.1.symm)
  | recip h1 h2 h3 => simp at hl; exact Or.inl (key h1 h2 h3 hl.2.1.1.symm)
  | passive | indirect | copula | participle | adjective =>
    simp at hl
    obtain ⟨-, ⟨-, rfl, -⟩, -⟩ := hl
    exact absurd hk (by decide)
  | copulaActive h1 h2 h3 h4 h5 =>
    simp at hl
    obtain ⟨-, ⟨rfl, rfl, -⟩, -⟩ := hl
    exact Or.inr ⟨rfl, L.pastForm A C h5⟩
  | adjectiveActive h1 h2 h3 h4 =>
    simp at hl
    obtain ⟨-, ⟨rfl, rfl, -⟩, -⟩ := hl
    exact Or.inr ⟨rfl, L.pastForm A C h4⟩

/-- **C109** (partial: full statement `MeantNotStated` refuted by `C109_wanted_false`). *What people only want is not reported as a
fact.* A word that only verbs of clauses of other verbs say is the verb of no tuple by itself. -/
theorem C109_meant_partial (H : Reports ck c tokens tg t ts) (C : Clean t) {w : Str}
    (hv : ∀ k, Word t k → SaidBy c tokens tg t k w → OnlyMeant ck c tokens tg t k) (hp : ∀ k, ¬ PastForm c tokens t k w)
    {k : Str} (hk : k = c!"I" ∨ k = c!"T" ∨ k = c!"R") {rest : List Argument} (hrest : rest.length ≤ 1) (a : Argument) (pol : Bool) :
    STuple.mk (a :: ⟨w, k, pol⟩ :: rest) ∉ ts := by
  intro hx
  rcases C109_verb_source H C hk hrest hx with ⟨v, h1, h2, h3⟩ | ⟨-, p, h1⟩
  · exact h3 (hv v h1 h2)
  · exact hp p h1

/-- The expectation of C109 for passive forms: what foxes do not want to bake is not reported as baked. -/
def MeantNotStated (ck : Bool) : Prop :=
  ∀ (c : Logic) (tokens : List Str) (tg : List Tag) (t : Tree Dep Nat) (ts : List STuple), Reported ck c tokens tg t ts → Clean t →
    (∀ k : Nat, tg[k]? ≠ some .ADJ) → c.lemmatizer.adjs = [] → ∀ (q : Str),
    (∀ k l p ps, Word t k → tg[k]? = some .VERB → LemmaOf c tokens tg k l → PartWords c.lower tokens (t.children k) k ps →
      Model.pastParticiple c.lemmatizer.lm [[]] c.reversedPps l = .ok p → q = List.intercalate c!" " (p :: ps) →
      OnlyMeant ck c tokens tg t k) →
    ∀ (a b : Argument) (pol : Bool), b.word = q → STuple.mk [a, ⟨c!"be", c!"C", pol⟩, b] ∉ ts

/-! ### Examples and counterexamples -/

theorem Demo.unmarked {d : Demo} (h : d.Parsed) {i : Nat} (k : ∀ a ∈ d.arcs, a.2.1 = i → a.1 ≠ .MARK ∧ a.1 ≠ .CMARK ∧ a.1 ≠ .IMARK) :
    Unmarked d.tree i := by
  intro l x q
  rw [Demo.mem h] at q
  exact k _ q rfl

theorem Demo.one {d : Demo} (h : d.Parsed) {l : Dep} {p x : Nat} (k : ∀ a ∈ d.arcs, a.1 = l → a.2.1 = p → a.2.2 = x) :
    ∀ y, (l, y) ∈ d.tree.children p → y = x := by
  intro y q
  rw [Demo.mem h] at q
  exact k _ q rfl rfl

theorem Demo.none {d : Demo} (h : d.Parsed) {l : Dep} {p : Nat} (k : ∀ a ∈ d.arcs, a.2.1 = p → a.1 ≠ l) :
    ∀ y, (l, y) ∉ d.tree.children p := by
  intro y q
  rw [Demo.mem h] at q
  exact k _ q rfl rfl

theorem Demo.plain {d : Demo} (h : d.Parsed) {p : Nat} (k : ∀ a ∈ d.arcs, a.2.1 = p → a.1 ≠ .PROP ∧ a.1 ≠ .IPROP ∧ a.1 ≠ .EXIST) :
    ∀ l x, (l, x) ∈ d.tree.children p → l ≠ .PROP ∧ l ≠ .IPROP ∧ l ≠ .EXIST := by
  intro l x q
  rw [Demo.mem h] at q
  exact k _ q rfl

/-- Particles before the verb are no particles of its name. -/
theorem Demo.noParts' {d : Demo} (h : d.Parsed) {i : Nat} (k : ∀ a ∈ d.arcs, a.2.1 = i → a.1 = .PART → a.2.2 ≤ i) :
    PartWords demoLogic.lower d.tokens (d.tree.children i) i [] := by
  refine ⟨[], [], List.Pairwise.nil, ?_, .nil, rfl⟩
  rw [List.filter_eq_nil_iff.mpr]
  · exact List.Perm.nil
  · rintro ⟨l, x⟩ q
    rw [Demo.mem h] at q
    have := k _ q rfl
    simp only [decide_eq_true_eq, not_and, not_lt]
    exact this

theorem Demo.said {d : Demo} (h : d.Parsed) {i : Nat} (tok s l : Str) (x : Option Suffix) (h1 : d.tokens[i]? = some tok)
    (h2 : d.tags[i]? = some .VERB) (h3 : standardize demoLogic.lemmatizer.lm (demoLogic.lower tok) = .ok s)
    (h4 : demoLogic.lemmatizer.call s .VERB = .ok (l, x)) (k : ∀ a ∈ d.arcs, a.2.1 = i → a.1 = .PART → a.2.2 ≤ i) :
    SaidBy demoLogic d.tokens d.tags d.tree i l :=
  ⟨l, [], h2, ⟨s, .VERB, x, ⟨tok, h1, h3⟩, h2, h4⟩, Demo.noParts' h k, by simp [List.intercalate]⟩

/-- "Foxes want themselves to bake formats." -/
def wanting : Demo where
  tokens := [c!"Foxes", c!"want", c!"themselves", c!"to", c!"bake", c!"formats"]
  tags := [.NOUN, .VERB, .PRON, .PREP, .VERB, .NOUN]
  deps := [.SUBJ, .ROOT, .SUBJ, .PART, .OBJ, .OBJ]
  trans := [(0, 1, .LEFT), (3, 4, .LEFT), (2, 4, .LEFT), (1, 4, .RIGHT), (4, 5, .RIGHT)]
  root := 1
  arcs := [(.SUBJ, 1, 0), (.PART, 4, 3), (.SUBJ, 4, 2), (.OBJ, 1, 4), (.OBJ, 4, 5)]

theorem wanting_parsed : wanting.Parsed := by decide +kernel

example : STuple.mk [⟨c!"fox", c!"N", true⟩, ⟨c!"want", c!"T", true⟩, ⟨c!"fox", c!"N", true⟩, ⟨c!"bake", c!"T", true⟩,
    ⟨c!"format", c!"N", true⟩] ∈ wanting.tuples ck := by
  have h := wanting_parsed
  have w0 : Word wanting.tree 0 := Demo.word h (by decide)
  have w1 : Word wanting.tree 1 := Demo.word h (by decide)
  have w2 : Word wanting.tree 2 := Demo.word h (by decide)
  have w4 : Word wanting.tree 4 := Demo.word h (by decide)
  have w5 : Word wanting.tree 5 := Demo.word h (by decide)
  have c0 : Called ck demoLogic wanting.tokens wanting.tags wanting.tree 0 ⟨c!"fox", c!"N", true⟩ :=
    Demo.noun h c!"Foxes" c!"foxes" _ (some .PLURAL) rfl rfl (by decide +kernel) (by decide +kernel) (by decide)
  have c5 : Called ck demoLogic wanting.tokens wanting.tags wanting.tree 5 ⟨c!"format", c!"N", true⟩ :=
    Demo.noun h c!"formats" c!"formats" _ (some .PLURAL) rfl rfl (by decide +kernel) (by decide +kernel) (by decide)
  have c2 : Called ck demoLogic wanting.tokens wanting.tags wanting.tree 2 ⟨c!"themselves", c!"O", true⟩ :=
    Demo.pron c!"themselves" c!"themselves" c!"themselves" _ none rfl rfl (by decide +kernel) (by decide +kernel)
          (by decide +kernel)
  have s1 : SaidBy demoLogic wanting.tokens wanting.tags wanting.tree 1 c!"want" :=
    Demo.said h c!"want" c!"want" _ none rfl rfl (by decide +kernel) (by decide +kernel) (by decide)
  have s4 : SaidBy demoLogic wanting.tokens wanting.tags wanting.tree 4 c!"bake" :=
    Demo.said h c!"bake" c!"bake" _ none rfl rfl (by decide +kernel) (by decide +kernel) (by decide)
  have st : Stands ck demoLogic wanting.tokens wanting.tags wanting.tree .SUBJ 1 0 0 _ _ :=
    ⟨(Demo.mem h _ _ _).mpr (by decide), w0, c0, Or.inl rfl, w0, c0⟩
  have := C108_clause_transitive (Demo.reports h) (Demo.main h w1 rfl (by decide)) s1 st (fun _ => by decide)
    ⟨(Demo.mem h _ _ _).mpr (by decide), w4, ⟨_, s4, by decide⟩, Or.inl rfl, w4, s4⟩
    (.self (Or.inl rfl) ((Demo.mem h .SUBJ 4 2).mpr (by decide)) w2 c2 (by decide)
      ⟨(Demo.mem h .SUBJ 1 0).mpr (by decide), Demo.one h (by decide)⟩ st)
    ⟨(Demo.mem h _ _ 5).mpr (by decide), w5, c5, Or.inl rfl, w5, c5⟩ (by decide) (Demo.plain h (by decide))
  rwa [show affirmed [positive wanting.tree 0, positive wanting.tree 1, positive wanting.tree 0, positive wanting.tree 4,
    positive wanting.tree 5] = true by decide +kernel] at this

/-- "Foxes want to format." -/
def wantingTo : Demo where
  tokens := [c!"Foxes", c!"want", c!"to", c!"format"]
  tags := [.NOUN, .VERB, .PREP, .VERB]
  deps := [.SUBJ, .ROOT, .PART, .OBJ]
  trans := [(0, 1, .LEFT), (2, 3, .LEFT), (1, 3, .RIGHT)]
  root := 1
  arcs := [(.SUBJ, 1, 0), (.PART, 3, 2), (.OBJ, 1, 3)]

theorem wantingTo_parsed : wantingTo.Parsed := by decide +kernel

example : STuple.mk [⟨c!"fox", c!"N", true⟩, ⟨c!"want", c!"T", true⟩, ⟨c!"fox", c!"N", true⟩, ⟨c!"format", c!"I", true⟩] ∈
    wantingTo.tuples ck := by
  have h := wantingTo_parsed
  have w0 : Word wantingTo.tree 0 := Demo.word h (by decide)
  have w1 : Word wantingTo.tree 1 := Demo.word h (by decide)
  have w3 : Word wantingTo.tree 3 := Demo.word h (by decide)
  have c0 : Called ck demoLogic wantingTo.tokens wantingTo.tags wantingTo.tree 0 ⟨c!"fox", c!"N", true⟩ :=
    Demo.noun h c!"Foxes" c!"foxes" _ (some .PLURAL) rfl rfl (by decide +kernel) (by decide +kernel) (by decide)
  have s1 : SaidBy demoLogic wantingTo.tokens wantingTo.tags wantingTo.tree 1 c!"want" :=
    Demo.said h c!"want" c!"want" _ none rfl rfl (by decide +kernel) (by decide +kernel) (by decide)
  have s3 : SaidBy demoLogic wantingTo.tokens wantingTo.tags wantingTo.tree 3 c!"format" :=
    Demo.said h c!"format" c!"format" _ none rfl rfl (by decide +kernel) (by decide +kernel) (by decide)
  have := C108_clause_intransitive (Demo.reports h) (Demo.main h w1 rfl (by decide)) s1
    ⟨(Demo.mem h .SUBJ 1 0).mpr (by decide), w0, c0, Or.inl rfl, w0, c0⟩ (fun _ => by decide)
    ⟨(Demo.mem h _ _ 3).mpr (by decide), w3, ⟨_, s3, by decide⟩, Or.inl rfl, w3, s3⟩
    (.main (Demo.none h (by decide)) (Demo.none h (by decide))) (Demo.none h (by decide)) (Demo.none h (by decide)) (by decide)
    (Demo.plain h (by decide))
  rwa [show affirmed [positive wantingTo.tree 0, positive wantingTo.tree 1, positive wantingTo.tree 0,
    positive wantingTo.tree 3] = true by decide +kernel] at this

/-- "Foxes want no formats to be baked." -/
def wantingBaked : Demo where
  tokens := [c!"Foxes", c!"want", c!"no", c!"formats", c!"to", c!"be", c!"baked"]
  tags := [.NOUN, .VERB, .DET, .NOUN, .PREP, .VERB, .ADJ]
  deps := [.SUBJ, .ROOT, .NEG, .SUBJ, .PART, .OBJ, .PROP]
  trans := [(0, 1, .LEFT), (2, 3, .LEFT), (4, 5, .LEFT), (3, 5, .LEFT), (1, 5, .RIGHT), (5, 6, .RIGHT)]
  root := 1
  arcs := [(.SUBJ, 1, 0), (.NEG, 3, 2), (.PART, 5, 4), (.SUBJ, 5, 3), (.OBJ, 1, 5), (.PROP, 5, 6)]

theorem wantingBaked_parsed : wantingBaked.Parsed := by decide +kernel

theorem adjective_baked {d : Demo} (h : d.Parsed) {i : Nat} (h1 : d.tokens[i]? = some c!"baked") (h2 : d.tags[i]? = some .ADJ)
    (k : ∀ a ∈ d.arcs, a.2.1 = i → a.1 ≠ .PART) : Adjective demoLogic d.tokens d.tags d.tree i ⟨c!"baked", c!"L", true⟩ :=
  ⟨c!"baked", c!"baked", [], c!"bake", some .PAST, ⟨c!"baked", h1, by decide +kernel⟩, h2,
    ⟨c!"baked", .ADJ, none, ⟨c!"baked", h1, by decide +kernel⟩, h2, by decide +kernel⟩, by decide,
    Demo.noParts h k, by decide +kernel, rfl, rfl, by decide⟩

example : STuple.mk [⟨c!"fox", c!"N", true⟩, ⟨c!"want", c!"T", false⟩, ⟨c!"format", c!"N", true⟩, ⟨c!"be", c!"C", true⟩,
    ⟨c!"baked", c!"L", true⟩] ∈ wantingBaked.tuples ck := by
  have h := wantingBaked_parsed
  have w0 : Word wantingBaked.tree 0 := Demo.word h (by decide)
  have w1 : Word wantingBaked.tree 1 := Demo.word h (by decide)
  have w3 : Word wantingBaked.tree 3 := Demo.word h (by decide)
  have w5 : Word wantingBaked.tree 5 := Demo.word h (by decide)
  have w6 : Word wantingBaked.tree 6 := Demo.word h (by decide)
  have c0 : Called ck demoLogic wantingBaked.tokens wantingBaked.tags wantingBaked.tree 0 ⟨c!"fox", c!"N", true⟩ :=
    Demo.noun h c!"Foxes" c!"foxes" _ (some .PLURAL) rfl rfl (by decide +kernel) (by decide +kernel) (by decide)
  have c3 : Called ck demoLogic wantingBaked.tokens wantingBaked.tags wantingBaked.tree 3 ⟨c!"format", c!"N", true⟩ :=
    Demo.noun h c!"formats" c!"formats" _ (some .PLURAL) rfl rfl (by decide +kernel) (by decide +kernel) (by decide)
  have s1 : SaidBy demoLogic wantingBaked.tokens wantingBaked.tags wantingBaked.tree 1 c!"want" :=
    Demo.said h c!"want" c!"want" _ none rfl rfl (by decide +kernel) (by decide +kernel) (by decide)
  have s5 : SaidBy demoLogic wantingBaked.tokens wantingBaked.tags wantingBaked.tree 5 c!"be" :=
    Demo.said h c!"be" c!"be" _ none rfl rfl (by decide +kernel) (by decide +kernel) (by decide)
  have := C108_clause_property (Demo.reports h) (Demo.main h w1 rfl (by decide)) s1
    ⟨(Demo.mem h .SUBJ 1 0).mpr (by decide), w0, c0, Or.inl rfl, w0, c0⟩ (fun _ => by decide)
    ⟨(Demo.mem h _ _ 5).mpr (by decide), w5, ⟨_, s5, by decide⟩, Or.inl rfl, w5, s5⟩
    (.own (Or.inl rfl) ⟨(Demo.mem h .SUBJ 5 3).mpr (by decide), w3, c3, Or.inl rfl, w3, c3⟩ (by decide))
    ((Demo.mem h _ _ 6).mpr (by decide)) w6 (Or.inl rfl) w6 (Or.inr (adjective_baked h rfl rfl (by decide)))
  rwa [show affirmed [positive wantingBaked.tree 0, positive wantingBaked.tree 1, positive wantingBaked.tree 3,
    positive wantingBaked.tree 5, positive wantingBaked.tree 6] = false by decide +kernel] at this

/-- "Foxes bake formats foxes by baking foxes", as in "people call him John by singing songs". -/
def baking : Demo where
  tokens := [c!"Foxes", c!"bake", c!"formats", c!"foxes", c!"by", c!"baking", c!"foxes"]
  tags := [.NOUN, .VERB, .NOUN, .NOUN, .PREP, .VERB, .NOUN]
  deps := [.SUBJ, .ROOT, .OBJ, .IPROP, .MARK, .CPL, .OBJ]
  trans := [(0, 1, .LEFT), (1, 2, .RIGHT), (2, 3, .REDUCE), (1, 3, .RIGHT), (4, 5, .LEFT), (3, 5, .REDUCE), (1, 5, .RIGHT),
    (5, 6, .RIGHT)]
  root := 1
  arcs := [(.SUBJ, 1, 0), (.OBJ, 1, 2), (.IPROP, 1, 3), (.MARK, 5, 4), (.CPL, 1, 5), (.OBJ, 5, 6)]

theorem baking_parsed : baking.Parsed := by decide +kernel

theorem baking_said : SaidBy demoLogic baking.tokens baking.tags baking.tree 1 c!"bake" :=
  Demo.said baking_parsed c!"bake" c!"bake" _ none rfl rfl (by decide +kernel) (by decide +kernel) (by decide)

example : STuple.mk [⟨c!"format", c!"N", true⟩, ⟨c!"be baked", c!"C", true⟩, ⟨c!"fox", c!"N", true⟩] ∈ baking.tuples ck := by
  have h := baking_parsed
  have w0 : Word baking.tree 0 := Demo.word h (by decide)
  have w1 : Word baking.tree 1 := Demo.word h (by decide)
  have w2 : Word baking.tree 2 := Demo.word h (by decide)
  have w3 : Word baking.tree 3 := Demo.word h (by decide)
  have c2 : Called ck demoLogic baking.tokens baking.tags baking.tree 2 ⟨c!"format", c!"N", true⟩ :=
    Demo.noun h c!"formats" c!"formats" _ (some .PLURAL) rfl rfl (by decide +kernel) (by decide +kernel) (by decide)
  have c3 : Called ck demoLogic baking.tokens baking.tags baking.tree 3 ⟨c!"fox", c!"N", true⟩ :=
    Demo.noun h c!"foxes" c!"foxes" _ (some .PLURAL) rfl rfl (by decide +kernel) (by decide +kernel) (by decide)
  have := C108_indirect (Demo.reports h) (l := c!"bake") (q := c!"baked") w1 baking_said
    ⟨(Demo.mem h _ _ _).mpr (by decide), w2, c2, Or.inl rfl, w2, c2⟩ (Demo.one h (by decide))
    ((Demo.mem h _ _ 3).mpr (by decide)) w3 (Or.inl rfl) w3 (Or.inl ⟨c3, fun l _ => by simp [demoLogic, demoLemmatizer, bareLemmatizer]⟩)
    (Or.inr ⟨0, ⟨(Demo.mem h _ _ _).mpr (by decide), Demo.one h (by decide)⟩, w0, rfl⟩)
    ⟨c!"bake", .VERB, none, ⟨c!"bake", rfl, by decide +kernel⟩, rfl, by decide +kernel⟩ (Demo.noParts h (by decide))
    (by decide +kernel)
  rwa [show affirmed ([positive baking.tree 0] ++ [positive baking.tree 1, positive baking.tree 2, positive baking.tree 3]) = true
    by decide +kernel] at this

example : STuple.mk [⟨c!"fox", c!"N", true⟩, ⟨c!"bake", c!"T", true⟩, ⟨c!"fox", c!"N", true⟩] ∈ baking.tuples ck := by
  have h := baking_parsed
  have w0 : Word baking.tree 0 := Demo.word h (by decide)
  have w1 : Word baking.tree 1 := Demo.word h (by decide)
  have w5 : Word baking.tree 5 := Demo.word h (by decide)
  have w6 : Word baking.tree 6 := Demo.word h (by decide)
  have c0 : Called ck demoLogic baking.tokens baking.tags baking.tree 0 ⟨c!"fox", c!"N", true⟩ :=
    Demo.noun h c!"Foxes" c!"foxes" _ (some .PLURAL) rfl rfl (by decide +kernel) (by decide +kernel) (by decide)
  have c6 : Called ck demoLogic baking.tokens baking.tags baking.tree 6 ⟨c!"fox", c!"N", true⟩ :=
    Demo.noun h c!"foxes" c!"foxes" _ (some .PLURAL) rfl rfl (by decide +kernel) (by decide +kernel) (by decide)
  have := C108_marked (Demo.reports h) w1 baking_said
    ⟨(Demo.mem h _ _ _).mpr (by decide), w0, c0, Or.inl rfl, w0, c0⟩ (Demo.one h (by decide))
    ((Demo.mem h _ _ 5).mpr (by decide)) (Demo.main h w5 rfl (by decide))
    (Demo.said h c!"baking" c!"baking" c!"bake" (some .PROGRESSIVE) rfl rfl (by decide +kernel) (by decide +kernel) (by decide))
    ((Demo.mem h _ _ 4).mpr (by decide)) (Demo.none h (by decide)) (Demo.none h (by decide))
    ⟨(Demo.mem h _ _ _).mpr (by decide), w6, c6, Or.inl rfl, w6, c6⟩ (by decide) (by decide)
  rwa [show affirmed [positive baking.tree 0, positive baking.tree 5, positive baking.tree 6] = true by decide +kernel] at this

/-- "Formats baked foxes by foxes", as in "songs called ballads by people". -/
def bakedFormats : Demo where
  tokens := [c!"Formats", c!"baked", c!"foxes", c!"by", c!"foxes"]
  tags := [.NOUN, .ADJ, .NOUN, .PREP, .NOUN]
  deps := [.ROOT, .CPL, .PROP, .MARK, .CPL]
  trans := [(0, 1, .RIGHT), (1, 2, .RIGHT), (3, 4, .LEFT), (2, 4, .REDUCE), (1, 4, .RIGHT)]
  root := 0
  arcs := [(.CPL, 0, 1), (.PROP, 1, 2), (.MARK, 4, 3), (.CPL, 1, 4)]

theorem bakedFormats_parsed : bakedFormats.Parsed := by decide +kernel

example : STuple.mk [⟨c!"format", c!"N", true⟩, ⟨c!"be baked", c!"C", true⟩, ⟨c!"fox", c!"N", true⟩] ∈ bakedFormats.tuples ck ∧
    STuple.mk [⟨c!"fox", c!"N", true⟩, ⟨c!"bake", c!"T", true⟩, ⟨c!"format", c!"N", true⟩] ∈ bakedFormats.tuples ck := by
  have h := bakedFormats_parsed
  have w0 : Word bakedFormats.tree 0 := Demo.word h (by decide)
  have w1 : Word bakedFormats.tree 1 := Demo.word h (by decide)
  have w2 : Word bakedFormats.tree 2 := Demo.word h (by decide)
  have w4 : Word bakedFormats.tree 4 := Demo.word h (by decide)
  have c0 : Called ck demoLogic bakedFormats.tokens bakedFormats.tags bakedFormats.tree 0 ⟨c!"format", c!"N", true⟩ :=
    Demo.noun h c!"Formats" c!"formats" _ (some .PLURAL) rfl rfl (by decide +kernel) (by decide +kernel) (by decide)
  have c2 : Called ck demoLogic bakedFormats.tokens bakedFormats.tags bakedFormats.tree 2 ⟨c!"fox", c!"N", true⟩ :=
    Demo.noun h c!"foxes" c!"foxes" _ (some .PLURAL) rfl rfl (by decide +kernel) (by decide +kernel) (by decide)
  have c4 : Called ck demoLogic bakedFormats.tokens bakedFormats.tags bakedFormats.tree 4 ⟨c!"fox", c!"N", true⟩ :=
    Demo.noun h c!"foxes" c!"foxes" _ (some .PLURAL) rfl rfl (by decide +kernel) (by decide +kernel) (by decide)
  have p1 : PastOf demoLogic bakedFormats.tokens bakedFormats.tags bakedFormats.tree 1 ⟨c!"baked", c!"L", true⟩ c!"bake" :=
    ⟨adjective_baked h rfl rfl (by decide), c!"baked", ⟨c!"baked", rfl, by decide +kernel⟩, by decide +kernel⟩
  have e1 := C108_participle (Demo.reports h) w0 c0 ((Demo.mem h _ _ 1).mpr (by decide)) w1 p1 (Demo.none h (by decide))
    ⟨(Demo.mem h _ _ 2).mpr (by decide), Demo.one h (by decide)⟩ w2 (Or.inl rfl) w2
    (Or.inl ⟨c2, fun l _ => by simp [demoLogic, demoLemmatizer, bareLemmatizer]⟩)
  have e2 := C108_participle_agent (Demo.reports h) w0 c0 ((Demo.mem h _ _ 1).mpr (by decide)) w1 p1 (Demo.none h (by decide))
    (by decide) (Demo.noParts h (by decide)) ⟨(Demo.mem h _ _ 4).mpr (by decide), w4, c4, Or.inl rfl, w4, c4⟩
    ⟨3, c!"by", ⟨(Demo.mem h _ _ _).mpr (by decide), Demo.one h (by decide)⟩, Demo.none h (by decide), rfl, by decide +kernel⟩
  rw [show affirmed [positive bakedFormats.tree 0, positive bakedFormats.tree 1, positive bakedFormats.tree 2] = true
    by decide +kernel] at e1
  rw [show affirmed [positive bakedFormats.tree 4, positive bakedFormats.tree 1, positive bakedFormats.tree 0] = true
    by decide +kernel] at e2
  exact ⟨e1, e2⟩

/-- "Foxes do not want to bake formats." -/
def notWanting : Demo where
  tokens := [c!"Foxes", c!"do", c!"not", c!"want", c!"to", c!"bake", c!"formats"]
  tags := [.NOUN, .VERB, .ADV, .VERB, .PREP, .VERB, .NOUN]
  deps := [.SUBJ, .AUX, .NEG, .ROOT, .PART, .OBJ, .OBJ]
  trans := [(2, 3, .LEFT), (1, 3, .LEFT), (0, 3, .LEFT), (4, 5, .LEFT), (3, 5, .RIGHT), (5, 6, .RIGHT)]
  root := 3
  arcs := [(.NEG, 3, 2), (.AUX, 3, 1), (.SUBJ, 3, 0), (.PART, 5, 4), (.OBJ, 3, 5), (.OBJ, 5, 6)]

theorem notWanting_parsed : notWanting.Parsed := by decide +kernel

theorem notWanting_tuples : ∀ ck, (notWanting.tuples ck).map (fun x => x.flatten true) =
    [c!"NTNTN(fox, NOT want, fox, bake, format)", c!"NCL(format, be, baked)"] := by
  decide +kernel

theorem notWanting_clean : Clean notWanting.tree := by
  have h := notWanting_parsed
  intro k hk
  have : (∃ a ∈ notWanting.arcs, a.2.1 = k ∨ a.2.2 = k) := by
    rcases hk with ⟨d, x, q⟩ | ⟨d, x, q⟩
    · exact ⟨_, (Demo.mem h _ _ _).mp q, Or.inl rfl⟩
    · exact ⟨_, (Demo.mem h _ _ _).mp q, Or.inr rfl⟩
  have : k = 0 ∨ k = 1 ∨ k = 2 ∨ k = 3 ∨ k = 4 ∨ k = 5 ∨ k = 6 := by
    obtain ⟨a, ha, e⟩ := this
    have : ∀ a ∈ notWanting.arcs, a.2.1 ≤ 6 ∧ a.2.2 ≤ 6 := by decide
    have := this a ha
    omega
  rcases this with rfl | rfl | rfl | rfl | rfl | rfl | rfl
  · exact Or.inl (Demo.word h (by decide))
  · exact Or.inr ⟨.AUX, 3, by decide, (Demo.mem h _ _ _).mpr (by decide), Demo.word h (by decide)⟩
  · exact Or.inr ⟨.NEG, 3, by decide, (Demo.mem h _ _ _).mpr (by decide), Demo.word h (by decide)⟩
  · exact Or.inl (Demo.word h (by decide))
  · exact Or.inr ⟨.PART, 5, by decide, (Demo.mem h _ _ _).mpr (by decide), Demo.word h (by decide)⟩
  · exact Or.inl (Demo.word h (by decide))
  · exact Or.inl (Demo.word h (by decide))

theorem notWanting_meant : OnlyMeant ck demoLogic notWanting.tokens notWanting.tags notWanting.tree 5 := by
  have h := notWanting_parsed
  have w0 : Word notWanting.tree 0 := Demo.word h (by decide)
  have w3 : Word notWanting.tree 3 := Demo.word h (by decide)
  have w5 : Word notWanting.tree 5 := Demo.word h (by decide)
  have c0 : Called ck demoLogic notWanting.tokens notWanting.tags notWanting.tree 0 ⟨c!"fox", c!"N", true⟩ :=
    Demo.noun h c!"Foxes" c!"foxes" _ (some .PLURAL) rfl rfl (by decide +kernel) (by decide +kernel) (by decide)
  have s5 : SaidBy demoLogic notWanting.tokens notWanting.tags notWanting.tree 5 c!"bake" :=
    Demo.said h c!"bake" c!"bake" _ none rfl rfl (by decide +kernel) (by decide +kernel) (by decide)
  exact ⟨3, c!"want", 0, 0, _, _, 5, c!"bake", Demo.main h w3 rfl (by decide),
    Demo.said h c!"want" c!"want" _ none rfl rfl (by decide +kernel) (by decide +kernel) (by decide),
    ⟨(Demo.mem h .SUBJ 3 0).mpr (by decide), w0, c0, Or.inl rfl, w0, c0⟩, fun _ => by decide,
    ⟨(Demo.mem h _ _ 5).mpr (by decide), w5, ⟨_, s5, by decide⟩, Or.inl rfl, w5, s5⟩⟩

/-- The word tokens of the sentence tagged as verbs: "want" and "bake". -/
theorem notWanting_verbs {k : Nat} (hw : Word notWanting.tree k) (hv : notWanting.tags[k]? = some .VERB) : k = 3 ∨ k = 5 := by
  have h := notWanting_parsed
  have : k < 7 := (List.getElem?_eq_some_iff.mp hv).1
  have : k = 0 ∨ k = 1 ∨ k = 2 ∨ k = 3 ∨ k = 4 ∨ k = 5 ∨ k = 6 := by omega
  rcases this with rfl | rfl | rfl | rfl | rfl | rfl | rfl
  all_goals first | (exact Or.inl rfl) | (exact Or.inr rfl) | skip
  · cases hv
  · exact absurd (show Dep.AUX ∈ functional by decide) (hw.up _ _ ((Demo.mem h .AUX 3 1).mpr (by decide))).2
  · cases hv
  · cases hv
  · cases hv

theorem notWanting_want {l : Str} (hl : LemmaOf demoLogic notWanting.tokens notWanting.tags 3 l) : l = c!"want" :=
  LemmaOf_unique hl ⟨c!"want", .VERB, none, ⟨c!"want", rfl, by decide +kernel⟩, rfl, by decide +kernel⟩

/-- **C109** (negation). "Foxes do not want to bake formats" is reported as "format be baked", affirmatively. -/
theorem C109_wanted_false (ck : Bool) : ¬ MeantNotStated ck ∧
    STuple.mk [⟨c!"format", c!"N", true⟩, ⟨c!"be", c!"C", true⟩, ⟨c!"baked", c!"L", true⟩] ∈ notWanting.tuples ck := by
  have h := notWanting_parsed
  have hm : STuple.mk [⟨c!"format", c!"N", true⟩, ⟨c!"be", c!"C", true⟩, ⟨c!"baked", c!"L", true⟩] ∈ notWanting.tuples ck := by
    cases ck <;> decide +kernel
  refine ⟨fun H => ?_, hm⟩
  refine H _ _ _ _ _ (Demo.reported h) notWanting_clean ?_ rfl c!"baked" ?_ _ _ _ rfl hm
  · intro k hk
    have := List.mem_of_getElem? hk
    revert this
    decide
  · intro k l p ps hw hv hl hps hp hq
    rcases notWanting_verbs hw hv with rfl | rfl
    · exfalso
      have := notWanting_want hl
      subst this
      rw [show Model.pastParticiple demoLogic.lemmatizer.lm [[]] demoLogic.reversedPps c!"want" = .ok c!"wanted" by decide +kernel] at hp
      cases hp
      rw [PartWords_unique hps (Demo.noParts h (by decide))] at hq
      revert hq
      decide
    · exact notWanting_meant

/-- The verb of the clause is not the verb of a tuple by itself. -/
example (a b : Argument) (pol : Bool) : STuple.mk [a, ⟨c!"bake", c!"T", pol⟩, b] ∉ notWanting.tuples ck := by
  have h := notWanting_parsed
  refine C109_meant_partial (Demo.reports h) notWanting_clean ?_ ?_ (Or.inr (Or.inl rfl)) (rest := [b]) (by simp) a pol
  · rintro k hw ⟨l, ps, hv, hl, hps, e⟩
    rcases notWanting_verbs hw hv with rfl | rfl
    · exfalso
      have := notWanting_want hl
      subst this
      rw [PartWords_unique hps (Demo.noParts h (by decide))] at e
      revert e
      decide
    · exact notWanting_meant
  · rintro k ⟨-, s, l, ps, ⟨tok, h1, h2⟩, h3, -⟩
    have key : ∀ tok ∈ notWanting.tokens, ((standardize demoLogic.lemmatizer.lm (demoLogic.lower tok)).bind fun s =>
        (demoLogic.lemmatizer.call s .VERB).map fun r => decide (r.2 = some .PAST)) = .ok false := by decide +kernel
    have := key tok (List.mem_of_getElem? h1)
    rw [h2] at this
    simp [Except.bind, h3, Except.map] at this

end Props
