import Verif.Lemmas.Statements
import Verif.Lemmas.TestHelpers
import Verif.Props.Provenance
import Verif.Props.SameTuples

/-! C105: what a parse states is reported. -/

namespace Props
open Py Model Spec

/-- The parser gave a sentence the tags `tg` and the tree `t`, and the tuples of this sentence are `ts`, with (`ck = true`) or
without chunking of common nouns. -/
def Reported (ck : Bool) (c : Logic) (tokens : List Str) (tg : List Tag) (t : Tree Dep Nat) (ts : List STuple) : Prop :=
  LogicOk c ∧ tokens.length = tg.length ∧
  (∃ (W S : Type) (nets : Networks W) (vectorize : S → Except PyErr (Nat × W)) (sentences : List S)
    (tags : List (List Tag)) (trees : List (Option (Tree Dep Nat))) (i : Nat),
    Returned nets vectorize sentences tags trees ∧ trees[i]? = some (some t) ∧ tags[i]? = some tg) ∧
  ∃ st, c.process (tokens, tg, some t, ck) = .ok (st, ts)

/-- As `Reported`, where `tokens`, `tg` and `t` are the sentence itself or the sentence with some of its flat expressions read as
one word each. -/
def Reports (ck : Bool) (c : Logic) (tokens : List Str) (tg : List Tag) (t : Tree Dep Nat) (ts : List STuple) : Prop :=
  ∃ width tokens₀ tg₀ t₀, Reported ck c tokens₀ tg₀ t₀ ts ∧ OneWord width t₀ tokens₀ tg₀ t tokens tg

variable {ck : Bool} {c : Logic} {tokens : List Str} {tg : List Tag} {t : Tree Dep Nat} {ts : List STuple}

theorem Reported.reports (H : Reported ck c tokens tg t ts) : Reports ck c tokens tg t ts :=
  ⟨_, _, _, _, H, oneWord_refl t tokens tg⟩

/-- The tuples as a list, of nodes with lists of arguments. -/
theorem Reports.lists (H : Reports ck c tokens tg t ts) : ∃ h h' nt nodes pos, Linked ck c tokens tg t h nt nodes pos ∧
    ArgsFound h nt nodes h' ∧ Order.Lists h nt nodes h' ∧ nodes.Nodup ∧ extractTuples c.pp h' nodes = .ok ts := by
  obtain ⟨width, tokens₀, tg₀, t₀, ⟨hc, hl, ⟨W, S, nets, vectorize, sentences, tags, trees, i, hr, ht, hg⟩, st, hp⟩, F⟩ := H
  obtain ⟨h, nt, pos, L, A, E, B, N, -⟩ := Model.linked_lists hr hc ht hg hl hp F
  exact ⟨h, _, nt, _, pos, L, A, B, N, process_extract hp⟩

theorem Reports.linked (H : Reports ck c tokens tg t ts) : ∃ h h' nt nodes pos, Linked ck c tokens tg t h nt nodes pos ∧
    ArgsFound h nt nodes h' ∧ ∀ x, x ∈ ts ↔ Said c.pp h' nodes x.args := by
  obtain ⟨width, tokens₀, tg₀, t₀, ⟨hc, hl, ⟨W, S, nets, vectorize, sentences, tags, trees, i, hr, ht, hg⟩, st, hp⟩, F⟩ := H
  obtain ⟨h, nt, pos, L, A, E, -⟩ := Model.linked_lists hr hc ht hg hl hp F
  exact ⟨h, _, nt, _, pos, L, A, E⟩

/-- **C105.** "People sing songs": a verb with a subject and an object is reported as subject, verb and object, for every
member of the coordinated subjects and objects, negatively when an odd number of the three is negated. -/
theorem C105_transitive (H : Reports ck c tokens tg t ts) {v s s' o o' : Nat} {w : Str} {a₀ a b₀ b : Argument}
    (hv : Main c tokens tg t v) (hw : SaidBy c tokens tg t v w) (hs : Stands ck c tokens tg t .SUBJ v s s' a₀ a)
    (ho : Stands ck c tokens tg t .OBJ v o o' b₀ b)
    (hrel : (∃ n, (.CPL, v) ∈ t.children n) → a₀.word ∉ relatives ∧ b₀.word ∉ relatives) (hrefl : b₀.word ∉ reflexives) :
    STuple.mk [a, ⟨w, c!"T", affirmed [positive t s', positive t v, positive t o']⟩, b] ∈ ts := by
  obtain ⟨h, h', nt, nodes, pos, L, A, E⟩ := H.linked
  obtain ⟨rv, V, hh, he, -⟩ := L.main A hv hw
  obtain ⟨r, R, hr, -⟩ := L.subj A V.pos (fun p hp => (hv.free _ _ hp).2.1 rfl) hs fun k => (hrel k).1
  obtain ⟨q, Q, hq⟩ := L.obj A V.pos ho (fun k => (hrel k).2) hrefl
  rw [E]
  have := Said.trans (pp := c.pp) V.mem he hh hr R.nominal' hq Q.nominal' R.isNoun Q.isNoun
  rw [V.canon', R.aff, V.aff, Q.aff] at this
  exact this

/-- **C105.** "People sing": a verb with a subject and no object, no complement of anything, is reported as subject and
verb. -/
theorem C105_intransitive (H : Reports ck c tokens tg t ts) {v s s' : Nat} {w : Str} {a₀ a : Argument}
    (hv : Main c tokens tg t v) (hw : SaidBy c tokens tg t v w) (hs : Stands ck c tokens tg t .SUBJ v s s' a₀ a)
    (hno : ∀ x, (.OBJ, x) ∉ t.children v) (hcpl : ∀ n, (.CPL, v) ∉ t.children n)
    (haux : w ∉ [c!"have", c!"get", c!"be", c!"do"]) :
    STuple.mk [a, ⟨w, c!"I", affirmed [positive t s', positive t v]⟩] ∈ ts := by
  obtain ⟨h, h', nt, nodes, pos, L, A, E⟩ := H.linked
  obtain ⟨rv, V, hh, he, -⟩ := L.main A hv hw
  obtain ⟨r, R, hr, -⟩ := L.subj A V.pos (fun p hp => (hv.free _ _ hp).2.1 rfl) hs fun ⟨n, k⟩ => absurd k (hcpl n)
  rw [E]
  have hobj := L.noObj A V.pos (fun d p hp => ⟨by rintro rfl; exact hcpl _ hp, (hv.free _ _ hp).2.2⟩) hno
  have := Said.intr (pp := c.pp) V.mem he hh hobj (by rw [V.canon']; exact haux) hr R.nominal' R.isNoun
  rw [V.canon', R.aff, V.aff] at this
  exact this

/-- **C105.** "People sing him songs": the recipient. -/
theorem C105_recipient (H : Reports ck c tokens tg t ts) {v s s' o o' : Nat} {w : Str} {a₀ a b₀ b : Argument}
    (hv : Main c tokens tg t v) (hw : SaidBy c tokens tg t v w) (hs : Stands ck c tokens tg t .SUBJ v s s' a₀ a)
    (ho : Stands ck c tokens tg t .IOBJ v o o' b₀ b) (hrel : (∃ n, (.CPL, v) ∈ t.children n) → a₀.word ∉ relatives) :
    STuple.mk [a, ⟨w, c!"R", affirmed [positive t s', positive t v, positive t o']⟩, b] ∈ ts := by
  obtain ⟨h, h', nt, nodes, pos, L, A, E⟩ := H.linked
  obtain ⟨rv, V, hh, he, -⟩ := L.main A hv hw
  obtain ⟨r, R, hr, -⟩ := L.subj A V.pos (fun p hp => (hv.free _ _ hp).2.1 rfl) hs hrel
  obtain ⟨q, q', Q, Q', hp, hg⟩ := L.stands A V.pos ho (by simp)
  rw [E]
  have hq : q' ∈ (h'.node rv).iobjs := (A.iobjs _ _).mpr ⟨q, Q.mem, hp, hg⟩
  have := Said.recip (pp := c.pp) V.mem he hh hr R.nominal' hq Q'.nominal' R.isNoun Q'.isNoun
  rw [V.canon', R.aff, V.aff, Q'.aff] at this
  exact this

theorem affirmed_true (l : List Bool) : affirmed (true :: l) = affirmed l := by simp [affirmed]

/-- **C105.** "People sing songs" also says "songs are sung": the past participle is said of every member of the objects,
when the verb has an affirmative subject, or no subject and is no complement of anything. -/
theorem C105_passive (H : Reports ck c tokens tg t ts) {v o o' : Nat} {w l q : Str} {ps : List Str} {b₀ b : Argument}
    (hv : Main c tokens tg t v) (hw : SaidBy c tokens tg t v w) (ho : Stands ck c tokens tg t .OBJ v o o' b₀ b)
    (hrel : (∃ n, (.CPL, v) ∈ t.children n) → b₀.word ∉ relatives) (hrefl : b₀.word ∉ reflexives)
    (haux : w ∉ [c!"have", c!"get"])
    (hsubj : (∃ s s' a₀ a, Stands ck c tokens tg t .SUBJ v s s' a₀ a ∧ positive t s' = true ∧
        ((∃ n, (.CPL, v) ∈ t.children n) → a₀.word ∉ relatives)) ∨
      ((∀ x, (.SUBJ, x) ∉ t.children v) ∧ ∀ n, (.CPL, v) ∉ t.children n))
    (hl : LemmaOf c tokens tg v l) (hps : PartWords c.lower tokens (t.children v) v ps)
    (hq : Model.pastParticiple c.lemmatizer.lm [[]] c.reversedPps l = .ok q) :
    STuple.mk [b, ⟨c!"be", c!"C", affirmed [positive t v, positive t o']⟩, ⟨List.intercalate c!" " (q :: ps), c!"L", true⟩]
      ∈ ts := by
  obtain ⟨h, h', nt, nodes, pos, L, A, E⟩ := H.linked
  obtain ⟨rv, V, hh, he, l1, l2⟩ := L.main A hv hw
  obtain ⟨r, R, hr⟩ := L.obj A V.pos ho hrel hrefl
  rw [E]
  have := Said.passive (pp := c.pp) V.mem V.tag' hh.2.2 (by rw [V.canon']; exact haux) hr R.nominal' R.isNoun
  have e1 : affirmed (subjPolarity h' rv ++ [(h'.node rv).isAff, (h'.node r).isAff]) = affirmed [positive t v, positive t o'] := by
    rw [V.aff, R.aff]
    unfold subjPolarity
    rcases hsubj with ⟨s, s', a₀, a, hs, hpos, hsr⟩ | ⟨hs, hn⟩
    · obtain ⟨x, X, hx, -⟩ := L.subj A V.pos (fun p hp => (hv.free _ _ hp).2.1 rfl) hs hsr
      rw [if_neg (List.ne_nil_of_mem hx), decide_eq_true ⟨x, hx, by rw [X.aff]; exact hpos⟩]
      exact affirmed_true _
    · rw [L.noSubj A V.pos (fun d p hp => ⟨by rintro rfl; exact hn _ hp, (hv.free _ _ hp).2.2⟩) hs, if_pos rfl]
      rfl
  have e2 : Spec.pastParticiple c.pp h' rv = List.intercalate c!" " (q :: ps) := by
    unfold Spec.pastParticiple
    rw [join_eq_intercalate, PartWords_unique l2 hps, LemmaOf_unique l1 hl]
    have := c.pp_eq l
    rw [hq] at this
    rw [← Except.ok.inj this]
  rw [e1, e2] at this
  exact this

/-- **C105.** "People are happy", "people are singers": a property linked to the only subject of a verb is said of every
member of the coordinated subjects, for every coordinated property without marker. -/
theorem C105_copula (H : Reports ck c tokens tg t ts) {v s s' p p' : Nat} {w : Str} {a₀ a b : Argument}
    (hv : Word t v) (hw : SaidBy c tokens tg t v w) (hs : Stands ck c tokens tg t .SUBJ v s s' a₀ a)
    (hone : ∀ x, (.SUBJ, x) ∈ t.children v → x = s) (hrel : (∃ n, (.CPL, v) ∈ t.children n) → a₀.word ∉ relatives)
    (hp : (.PROP, p) ∈ t.children v) (wp : Word t p) (hm : Member t p p') (wp' : Word t p')
    (hb : Property ck c tokens tg t p' b) (hun : Unmarked t p') :
    STuple.mk [a, ⟨w, c!"C", affirmed [positive t s', positive t v, positive t p']⟩, b] ∈ ts := by
  obtain ⟨h, h', nt, nodes, pos, L, A, E⟩ := H.linked
  obtain ⟨rv, V, -⟩ := L.verb A hv hw
  obtain ⟨r, r', R, R', -, hg⟩ := L.stands A V.pos hs (by simp)
  obtain ⟨q, -, -, -, -, k1, k2, -⟩ := L.word wp
  obtain ⟨q', Q⟩ := L.property A wp' hb
  rw [E]
  have hq : (rv, q') ∈ (h'.node r').copulasProps := by
    rw [A.copulas]
    refine ⟨q, r, r, k2, L.parent wp V.pos k1 hp, L.first V.pos R.pos hs.arc hone,
      Or.inr (Or.inr ⟨L.notRel V.pos R hrel, fun _ k => k, rfl⟩), hg, L.group k1 k2 Q.pos hm, ?_⟩
    rintro (⟨x, k⟩ | ⟨x, k⟩ | ⟨x, k⟩) <;>
      (obtain ⟨y, -, k'⟩ := L.child Q.pos k; have := hun _ _ k'; tauto)
  have := Said.copula (pp := c.pp) R'.mem R'.nominal' hq Q.tag' R'.isNoun Q.isProp
  rw [V.canon', R'.aff, V.aff, Q.aff] at this
  exact this

/-- **C105.** "Happy people": an adjective attached to a noun without marker, and the adjectives coordinated to it, are said
of the noun. -/
theorem C105_adjective (H : Reports ck c tokens tg t ts) {n p p' : Nat} {a b₀ b : Argument} (hn : Word t n)
    (ha : Called ck c tokens tg t n a) (hp : (.CPL, p) ∈ t.children n) (wp : Word t p) (hb₀ : Adjective c tokens tg t p b₀)
    (hmark : ∀ x, (.MARK, x) ∉ t.children p) (hm : Member t p p') (wp' : Word t p') (hb : Adjective c tokens tg t p' b) :
    STuple.mk [a, ⟨c!"be", c!"C", affirmed [positive t p', positive t n]⟩, b] ∈ ts := by
  obtain ⟨h, h', nt, nodes, pos, L, A, E⟩ := H.linked
  obtain ⟨r, R⟩ := L.noun A hn ha (Or.inl (Or.inr ⟨_, _, hp, by simp, by simp⟩))
  obtain ⟨q, Q, -⟩ := L.adj A wp hb₀
  obtain ⟨q', Q', -⟩ := L.adj A wp' hb
  rw [E]
  have hq : q' ∈ (h'.node r).adjs := by
    rw [A.adjs]
    refine Or.inl ⟨q, Q.mem, L.parent wp R.pos Q.pos hp, ?_, Q.tag, L.group Q.pos Q.mem Q'.pos hm⟩
    rintro ⟨x, k⟩
    obtain ⟨y, -, k'⟩ := L.child Q.pos k
    exact hmark _ k'
  have := Said.adjective (pp := c.pp) R.mem R.nominal' hq R.isNoun Q'.isAdj
  rw [Q'.aff, R.aff] at this
  exact this

/-- **C105.** "Songs are sung by people": the active form is reported, the complement of the property introduced by "by" as
its subject. The negation of the copula is not taken into account (C106). -/
theorem C105_agent (H : Reports ck c tokens tg t ts) {v s s' p x x' : Nat} {l : Str} {ps : List Str} {a d : Argument}
    (B : ByAgent ck c tokens tg t v s s' p x x' l ps a d) :
    STuple.mk [d, ⟨List.intercalate c!" " (l :: ps), c!"T", affirmed [positive t x', positive t p, positive t s']⟩, a] ∈ ts := by
  obtain ⟨hv, ⟨w, hw⟩, ⟨a₀, hs, hrel⟩, hone, hp, wp, ⟨b, hb⟩, hun, ⟨sp, hsp, hl⟩, hne, hps, ⟨d₀, hx⟩,
    m, tok, hm, hmo, hmf, htok, hby⟩ := B
  obtain ⟨h, h', nt, nodes, pos, L, A, E⟩ := H.linked
  obtain ⟨rv, V, -⟩ := L.verb A hv hw
  obtain ⟨r, r', R, R', -, hg⟩ := L.stands A V.pos hs (by simp)
  obtain ⟨q, Q, q1, q2⟩ := L.adj A wp hb
  have hact := q2 sp l hsp hl
  rw [PartWords_unique q1 hps] at hact
  obtain ⟨y, Y⟩ := L.noun A hx.word hx.called (Or.inl (Or.inr ⟨_, _, hm, by simp, by simp⟩))
  have hst : Stable t x' := by
    rcases hx.member with rfl | hj | hj
    · exact Or.inr ⟨_, _, hm, by simp, by simp⟩
    · exact Or.inl ⟨_, _, hj, by simp, by simp, by simp⟩
    · exact Or.inl ⟨_, _, hj, by simp, by simp, by simp⟩
  obtain ⟨y', Y'⟩ := L.noun A hx.word' hx.called' (Or.inl hst)
  obtain ⟨rm, tok', m1, m2, m3⟩ := L.marker Y.pos hm hmf
  rw [htok] at m2
  cases m2
  rw [hby] at m3
  have hpq := L.parent wp V.pos Q.pos hp
  rw [E]
  have hc : (rv, q) ∈ (h'.node r').copulasProps := by
    rw [A.copulas]
    refine ⟨q, r, r, Q.mem, hpq, L.first V.pos R.pos hs.arc hone,
      Or.inr (Or.inr ⟨L.notRel V.pos R hrel, fun _ k => k, rfl⟩), hg, Or.inl rfl, ?_⟩
    rintro (⟨x, k⟩ | ⟨x, k⟩ | ⟨x, k⟩) <;>
      (obtain ⟨y, -, k'⟩ := L.child Q.pos k; have := hun _ _ k'; tauto)
  have hag : y' ∈ (h'.node q).agents := by
    rw [A.agents]
    exact ⟨y, rm, Y.mem, L.parent hx.word Q.pos Y.pos hx.arc, L.first Y.pos m1 hm hmo, m3, ⟨rv, Or.inl hpq⟩,
      L.group Y.pos Y.mem Y'.pos hx.member⟩
  have hw' : ActiveVerb (h'.node q) (List.intercalate c!" " (l :: ps)) := by
    refine ⟨hact, ?_⟩
    rw [← join_eq_intercalate]
    cases ps with
    | nil => simpa [join] using hne
    | cons p ps => simp [join]
  have := Said.copulaActive (pp := c.pp) R'.mem R'.nominal' hc Q.tag' hw' hag Y'.nominal' Y'.isNoun R'.isNoun
  rw [Y'.aff, Q.aff, R'.aff] at this
  exact this

/-- **C105.** "People who sing songs": the relative pronoun stands for the noun. -/
theorem C105_relative (H : Reports ck c tokens tg t ts) {n n' v s o o' : Nat} {w : Str} {e b₀ b : Argument}
    (R : WhoClause ck c tokens tg t n v s) (hnn : Member t n n') (hn' : Word t n') (he : Called ck c tokens tg t n' e)
    (hv : Main c tokens tg t v) (hw : SaidBy c tokens tg t v w)
    (ho : Stands ck c tokens tg t .OBJ v o o' b₀ b) (hbrel : b₀.word ∉ relatives) (hrefl : b₀.word ∉ reflexives) :
    STuple.mk [e, ⟨w, c!"T", affirmed [positive t n', positive t v, positive t o']⟩, b] ∈ ts := by
  obtain ⟨hn, ⟨e₀, he₀⟩, hcpl, hun, hs, ws, hpron, a, hc, hrel⟩ := R
  obtain ⟨h, h', nt, nodes, pos, L, A, E⟩ := H.linked
  obtain ⟨rv, V, hh, hemb, -⟩ := L.main A hv hw
  obtain ⟨rn, N⟩ := L.noun A hn he₀ (Or.inl (Or.inr ⟨_, _, hcpl, by simp, by simp⟩))
  have hst : Stable t n' := by
    rcases hnn with rfl | hj | hj
    · exact Or.inr ⟨_, _, hcpl, by simp, by simp⟩
    · exact Or.inl ⟨_, _, hj, by simp, by simp, by simp⟩
    · exact Or.inl ⟨_, _, hj, by simp, by simp, by simp⟩
  obtain ⟨rn', N'⟩ := L.noun A hn' he (Or.inl hst)
  obtain ⟨r, R⟩ := L.noun A ws hc (Or.inl (Or.inl ⟨_, _, hs, by simp⟩))
  obtain ⟨q, Q, hq⟩ := L.obj A V.pos ho (fun _ => hbrel) hrefl
  have htag : (h.node r).tag = .PRON := by
    have := R.tag
    rw [hpron] at this
    exact (Option.some.inj this).symm
  have hsub : rn' ∈ (h'.node rv).subjs := by
    rw [A.subjs]
    refine Or.inl ⟨rv, r, rn, R.mem, L.parent ws V.pos R.pos hs, Or.inl ⟨htag, ?_, L.parent hv.toWord N.pos V.pos hcpl,
      N.nominal, ?_⟩, L.group N.pos N.mem N'.pos hnn, Or.inl rfl⟩
    · rw [R.canon]; simpa [relatives] using hrel
    · rintro (⟨x, k⟩ | ⟨x, k⟩ | ⟨x, k⟩) <;>
        (obtain ⟨y, -, k'⟩ := L.child V.pos k; have := hun _ _ k'; tauto)
  rw [E]
  have := Said.trans (pp := c.pp) V.mem hemb hh hsub N'.nominal' hq Q.nominal' N'.isNoun Q.isNoun
  rw [V.canon', N'.aff, V.aff, Q.aff] at this
  exact this

/-- **C105.** "Songs which people sing": likewise for a relative pronoun as object. -/
theorem C105_relative_object (H : Reports ck c tokens tg t ts) {n n' v s s' o : Nat} {w : Str} {e₀ e a₀ a b : Argument}
    (hn : Word t n) (he₀ : Called ck c tokens tg t n e₀) (hnn : Member t n n') (hn' : Word t n') (he : Called ck c tokens tg t n' e)
    (hcpl : (.CPL, v) ∈ t.children n) (hv : Main c tokens tg t v) (hun : Unmarked t v)
    (hw : SaidBy c tokens tg t v w) (hs : Stands ck c tokens tg t .SUBJ v s s' a₀ a) (hsrel : a₀.word ∉ relatives)
    (ho : (.OBJ, o) ∈ t.children v) (wo : Word t o) (hc : Called ck c tokens tg t o b) (hpron : tg[o]? = some .PRON)
    (hrel : b.word ∈ relatives) :
    STuple.mk [a, ⟨w, c!"T", affirmed [positive t s', positive t v, positive t n']⟩, e] ∈ ts := by
  obtain ⟨h, h', nt, nodes, pos, L, A, E⟩ := H.linked
  obtain ⟨rv, V, hh, hemb, -⟩ := L.main A hv hw
  obtain ⟨rn, N⟩ := L.noun A hn he₀ (Or.inl (Or.inr ⟨_, _, hcpl, by simp, by simp⟩))
  have hst : Stable t n' := by
    rcases hnn with rfl | hj | hj
    · exact Or.inr ⟨_, _, hcpl, by simp, by simp⟩
    · exact Or.inl ⟨_, _, hj, by simp, by simp, by simp⟩
    · exact Or.inl ⟨_, _, hj, by simp, by simp, by simp⟩
  obtain ⟨rn', N'⟩ := L.noun A hn' he (Or.inl hst)
  obtain ⟨q, Q⟩ := L.noun A wo hc (Or.inl (Or.inl ⟨_, _, ho, by simp⟩))
  obtain ⟨r, R, hr, -⟩ := L.subj A V.pos (fun p hp => (hv.free _ _ hp).2.1 rfl) hs fun _ => hsrel
  have htag : (h.node q).tag = .PRON := by
    have := Q.tag
    rw [hpron] at this
    exact (Option.some.inj this).symm
  have hob : rn' ∈ (h'.node rv).objs := by
    rw [A.objs]
    refine Or.inl ⟨rv, q, rn, Q.mem, L.parent wo V.pos Q.pos ho, Or.inl ⟨htag, ?_, L.parent hv.toWord N.pos V.pos hcpl,
      N.nominal, ?_⟩, L.group N.pos N.mem N'.pos hnn, Or.inl rfl⟩
    · rw [Q.canon]; simpa [relatives] using hrel
    · rintro (⟨x, k⟩ | ⟨x, k⟩ | ⟨x, k⟩) <;>
        (obtain ⟨y, -, k'⟩ := L.child V.pos k; have := hun _ _ k'; tauto)
  rw [E]
  have := Said.trans (pp := c.pp) V.mem hemb hh hr R.nominal' hob N'.nominal' R.isNoun N'.isNoun
  rw [V.canon', R.aff, V.aff, N'.aff] at this
  exact this

/-- **C105.** "Songs people sing": a relative clause without pronoun and object has the noun as object. -/
theorem C105_bare_relative (H : Reports ck c tokens tg t ts) {n n' v s s' : Nat} {w : Str} {e₀ e a₀ a : Argument}
    (hn : Word t n) (he₀ : Called ck c tokens tg t n e₀) (hnn : Member t n n') (hn' : Word t n') (he : Called ck c tokens tg t n' e)
    (hcpl : (.CPL, v) ∈ t.children n) (hv : Main c tokens tg t v) (hun : Unmarked t v)
    (hw : SaidBy c tokens tg t v w) (hs : Stands ck c tokens tg t .SUBJ v s s' a₀ a) (hsrel : a₀.word ∉ relatives)
    (hone : ∀ x, (.SUBJ, x) ∈ t.children v → x = s) (hno : ∀ x, (.OBJ, x) ∉ t.children v) :
    STuple.mk [a, ⟨w, c!"T", affirmed [positive t s', positive t v, positive t n']⟩, e] ∈ ts := by
  obtain ⟨h, h', nt, nodes, pos, L, A, E⟩ := H.linked
  obtain ⟨rv, V, hh, hemb, -⟩ := L.main A hv hw
  obtain ⟨rn, N⟩ := L.noun A hn he₀ (Or.inl (Or.inr ⟨_, _, hcpl, by simp, by simp⟩))
  have hst : Stable t n' := by
    rcases hnn with rfl | hj | hj
    · exact Or.inr ⟨_, _, hcpl, by simp, by simp⟩
    · exact Or.inl ⟨_, _, hj, by simp, by simp, by simp⟩
    · exact Or.inl ⟨_, _, hj, by simp, by simp, by simp⟩
  obtain ⟨rn', N'⟩ := L.noun A hn' he (Or.inl hst)
  obtain ⟨q, -, Q, -, -, -⟩ := L.stands A V.pos hs (by simp)
  obtain ⟨r, R, hr, -⟩ := L.subj A V.pos (fun p hp => (hv.free _ _ hp).2.1 rfl) hs fun _ => hsrel
  have hob : rn' ∈ (h'.node rv).objs := by
    rw [A.objs]
    refine Or.inr ⟨rv, rn, q, V.mem, L.parent hv.toWord N.pos V.pos hcpl, ?_, N.nominal, ?_,
      L.first V.pos Q.pos hs.arc hone, ?_, L.group N.pos N.mem N'.pos hnn, Or.inl rfl⟩
    · rintro (⟨x, k⟩ | ⟨x, k⟩ | ⟨x, k⟩) <;>
        (obtain ⟨y, -, k'⟩ := L.child V.pos k; have := hun _ _ k'; tauto)
    · rintro ⟨x, k⟩
      obtain ⟨y, -, k'⟩ := L.child V.pos k
      exact hno _ k'
    · rw [Q.canon]; exact hsrel
  rw [E]
  have := Said.trans (pp := c.pp) V.mem hemb hh hr R.nominal' hob N'.nominal' R.isNoun N'.isNoun
  rw [V.canon', R.aff, V.aff, N'.aff] at this
  exact this

/-- **C105.** "People sing songs and read books": a coordinated verb without subject of its own has the subjects of the first
verb. -/
theorem C105_coordinated_verb (H : Reports ck c tokens tg t ts) {v v' s s' o o' : Nat} {w w' : Str} {a₀ a b₀ b : Argument}
    (hv : Main c tokens tg t v) (hw : SaidBy c tokens tg t v w) (hv' : CoVerb c tokens tg t v v')
    (hw' : SaidBy c tokens tg t v' w') (hs : Stands ck c tokens tg t .SUBJ v s s' a₀ a)
    (ho : Stands ck c tokens tg t .OBJ v' o o' b₀ b) (hrel : (∃ n, (.CPL, v) ∈ t.children n) → a₀.word ∉ relatives)
    (hrefl : b₀.word ∉ reflexives) :
    STuple.mk [a, ⟨w', c!"T", affirmed [positive t s', positive t v', positive t o']⟩, b] ∈ ts := by
  obtain ⟨h, h', nt, nodes, pos, L, A, E⟩ := H.linked
  obtain ⟨rv, V, -⟩ := L.main A hv hw
  obtain ⟨rv', V', hh, he, hsh⟩ := L.coVerb A hv V.pos V.tag hv' hw'
  obtain ⟨r, R, -, hr⟩ := L.subj A V.pos (fun p hp => (hv.free _ _ hp).2.1 rfl) hs hrel
  have hr := hr rv' (hsh V.mem)
  obtain ⟨q, Q, hq⟩ := L.obj A V'.pos ho (fun ⟨n, k⟩ => by
    rcases hv'.arc with e | e <;> cases L.label k e) hrefl
  rw [E]
  have := Said.trans (pp := c.pp) V'.mem he hh hr R.nominal' hq Q.nominal' R.isNoun Q.isNoun
  rw [V'.canon', R.aff, V'.aff, Q.aff] at this
  exact this

/-- **C105.** Every sentence of the documents made, with or without chunking, has the tuples of a parse by the networks, to which the
theorems above apply, or none. -/
theorem C105_documents {W : Type} {nets : Networks W} {vectorize : List Str → Except PyErr (Nat × W)}
    (ok : PipeOk nets vectorize c) (sentencizer : Str → Except PyErr (List (List Str))) (texts : List Str)
    (sents : List (List (List Str))) (hs : List.Forall₂ (fun text ss => sentencizer text = .ok ss) texts sents)
    (cfg : PipelineCfg) (hk : 0 < cfg.nbCores) (hb : 0 < cfg.batchSize) (docs : List Document)
    (hd : pipelineCall cfg sentencizer vectorize nets c texts ck = .ok (some docs)) :
    List.Forall₂ (fun ss d => List.Forall₂ (fun s sent =>
      sent.stuples = [] ∨ ∃ tg t, Reported ck c s tg t sent.stuples) (splitTokens ss) d.sentences) sents docs := by
  refine documents_hold ok (fun s ts => ts = [] ∨ ∃ tg t, Reported ck c s tg t ts) ck ?_ sentencizer texts sents hs cfg hk hb
    docs hd
  intro sentences tags trees hr i tokens tg o st ts h1 h2 h3 h4 h5
  cases o with
  | none => 
    rw [Logic.process_none] at h5
    exact Or.inl (Prod.mk.inj (Except.ok.inj h5)).2.symm
  | some t =>
    exact Or.inr ⟨tg, t, ok.logic, h4, ⟨W, List Str, nets, vectorize, sentences, tags, trees, i, hr, h3, h2⟩, st, h5⟩

/-! ### C106 -/

/-- **C106** (partial: full statement `ActiveFormNegated` refuted by `C106_negated_passive_false`). *"Songs are (not) sung by
people" says that people do (not) sing songs.* It does when the copula is not negated. -/
theorem C106_passive_partial (H : Reports ck c tokens tg t ts) {v s s' p x x' : Nat} {l : Str} {ps : List Str} {a d : Argument}
    (B : ByAgent ck c tokens tg t v s s' p x x' l ps a d) (hpos : positive t v = true) :
    STuple.mk [d, ⟨List.intercalate c!" " (l :: ps), c!"T",
      affirmed [positive t x', positive t v, positive t p, positive t s']⟩, a] ∈ ts := by
  have := C105_agent H B
  rwa [show affirmed [positive t x', positive t v, positive t p, positive t s'] =
    affirmed [positive t x', positive t p, positive t s'] by simp [affirmed, hpos, List.count_cons]]

/-! ### C107 -/

/-- **C107** (partial: full statement `SelfMeantInRelatives` refuted by `C107_relative_false`). *A reflexive object stands for
those who act.* It does when the subject is no relative pronoun. -/
theorem C107_reflexive_partial (H : Reports ck c tokens tg t ts) {v s s' s'' : Nat} {w : Str} {a₀ a a' : Argument}
    (B : SelfClause ck c tokens tg t v s w) (hs : Stands ck c tokens tg t .SUBJ v s s' a₀ a)
    (hs' : Stands ck c tokens tg t .SUBJ v s s'' a₀ a')
    (hrel : (∃ n, (.CPL, v) ∈ t.children n) → a₀.word ∉ relatives) :
    STuple.mk [a, ⟨w, c!"T", affirmed [positive t s', positive t v, positive t s'']⟩, a'] ∈ ts := by
  obtain ⟨hv, hw, -, hone, o, b, ho, wo, hc, hrefl⟩ := B
  obtain ⟨h, h', nt, nodes, pos, L, A, E⟩ := H.linked
  obtain ⟨rv, V, hh, hemb, -⟩ := L.main A hv hw
  obtain ⟨r, R, hr, -⟩ := L.subj A V.pos (fun p hp => (hv.free _ _ hp).2.1 rfl) hs hrel
  obtain ⟨x, x', X, X', hpx, hgx⟩ := L.stands A V.pos hs' (by simp)
  obtain ⟨q, Q⟩ := L.noun A wo hc (Or.inl (Or.inl ⟨_, _, ho, by simp⟩))
  have hnr : b.word ∉ relatives := by
    intro k
    simp only [relatives, List.mem_cons, List.not_mem_nil, or_false] at k
    rcases k with k | k | k <;> rw [k] at hrefl <;> revert hrefl <;> decide
  have hob : x' ∈ (h'.node rv).objs := by
    rw [A.objs]
    refine Or.inl ⟨rv, q, x, Q.mem, L.parent wo V.pos Q.pos ho, Or.inr (Or.inl ⟨L.notRel V.pos Q fun _ => hnr, ?_, ?_⟩),
      hgx, Or.inl rfl⟩
    · unfold Spec.Reflexive
      rw [Q.canon]
      exact hrefl
    · exact L.first V.pos X.pos hs'.arc hone
  rw [E]
  have := Said.trans (pp := c.pp) V.mem hemb hh hr R.nominal' hob X'.nominal' R.isNoun X'.isNoun
  rw [V.canon', R.aff, V.aff, X'.aff] at this
  exact this

/-! ### Examples and counterexamples -/

deriving instance DecidableEq for Model.Tree

def parserCfg : ParserCfg := ⟨Rounding.exact, 1, 100, oneThread 1, oneThread 1, 100⟩

/-- A sentence as networks see it. -/
structure Demo where
  tokens : List Str
  tags : List Tag
  deps : List Dep
  trans : List (Nat × Nat × Trans)
  root : Nat
  arcs : List (Dep × Nat × Nat)

def Demo.tree (d : Demo) : Tree Dep Nat := (buildTree d.root d.arcs).toOption.getD { root := d.root }

def Demo.tuples (d : Demo) (ck : Bool) : List STuple :=
  match demoLogic.process (d.tokens, d.tags, some d.tree, ck) with
  | .ok r => r.2
  | .error _ => []

/-- The networks parse the sentence as said, and its processing does not raise. -/
def Demo.Parsed (d : Demo) : Prop :=
  d.tags.length ≤ 50 ∧ d.deps.length ≤ 50 ∧ d.tokens.length = d.tags.length ∧
  parserCall parserCfg lengthOnly (labelNets d.tags d.deps d.trans) [d.tokens] = .ok (some ([d.tags], [some d.tree])) ∧
  ((buildTree d.root d.arcs).map fun _ => ()) = .ok () ∧
  ∀ ck : Bool, (demoLogic.process (d.tokens, d.tags, some d.tree, ck)).toOption.isSome

instance (d : Demo) : Decidable (parserCall parserCfg lengthOnly (labelNets d.tags d.deps d.trans) [d.tokens] =
    .ok (some ([d.tags], [some d.tree]))) := by infer_instance
instance (d : Demo) : Decidable (((buildTree d.root d.arcs).map fun _ => ()) = .ok ()) := by infer_instance
instance (d : Demo) : Decidable d.Parsed := by unfold Demo.Parsed; infer_instance

theorem Demo.reported {d : Demo} (h : d.Parsed) : Reported ck demoLogic d.tokens d.tags d.tree (d.tuples ck) := by
  obtain ⟨h1, h2, h3, h4, h5, h6⟩ := h
  refine ⟨demoLogic_ok, h3, ⟨Unit, List Str, _, lengthOnly, [d.tokens], [d.tags], [some d.tree], 0,
    ⟨labelNets_ok h1 h2 d.trans, ?_, parserCfg, by decide, by decide, h4⟩, rfl, rfl⟩, ?_⟩
  · intro s hs
    rw [List.mem_singleton] at hs
    subst hs
    exact ⟨_, (), h3 ▸ h1, by simp [lengthOnly, h3, h1]⟩
  · unfold Demo.tuples
    cases e : demoLogic.process (d.tokens, d.tags, some d.tree, ck) with
    | error e' => have := h6 ck; rw [e] at this; cases this
    | ok r => exact ⟨r.1, rfl⟩

theorem Demo.reports {d : Demo} (h : d.Parsed) : Reports ck demoLogic d.tokens d.tags d.tree (d.tuples ck) :=
  (Demo.reported h).reports

theorem Demo.mem {d : Demo} (h : d.Parsed) (l : Dep) (p x : Nat) : (l, x) ∈ d.tree.children p ↔ (l, p, x) ∈ d.arcs := by
  obtain ⟨h1, h2, h3, h4, h5, h6⟩ := h
  cases e : buildTree d.root d.arcs with
  | error e' => rw [e] at h5; cases h5
  | ok t =>
    have : d.tree = t := by simp [Demo.tree, e, Except.toOption]
    rw [this]
    exact (buildTree_inv e).mem_children _ _ _

abbrev Demo.IsWord (d : Demo) (i : Nat) : Prop :=
  (∃ a ∈ d.arcs, a.2.1 = i ∨ a.2.2 = i) ∧ (∀ a ∈ d.arcs, ∀ b ∈ d.arcs, a.2.2 = i → b.2.2 = i → a.2.1 = b.2.1) ∧
  (∀ a ∈ d.arcs, a.2.2 = i → a.1 ≠ .FLAT ∧ a.1 ∉ functional) ∧ ∀ a ∈ d.arcs, a.2.1 = i → a.1 ≠ .FLAT

theorem Demo.word {d : Demo} (h : d.Parsed) {i : Nat} (k : d.IsWord i) :
    Word d.tree i := by
  obtain ⟨⟨⟨l, p, x⟩, k0, k1⟩, k2, k3, k4⟩ := k
  refine ⟨?_, ?_, ?_, ?_⟩
  · rcases k1 with rfl | rfl
    · exact Or.inl ⟨l, x, (Demo.mem h _ _ _).mpr k0⟩
    · exact Or.inr ⟨l, p, (Demo.mem h _ _ _).mpr k0⟩
  · intro l p l' p' q q'
    rw [Demo.mem h] at q q'
    exact k2 _ q _ q' rfl rfl
  · intro l p q
    rw [Demo.mem h] at q
    exact k3 _ q rfl
  · intro x q
    rw [Demo.mem h] at q
    exact k4 _ q rfl rfl

theorem Demo.main {d : Demo} (h : d.Parsed) {i : Nat} (w : Word d.tree i) (hv : d.tags[i]? = some .VERB)
    (k : (∀ a ∈ d.arcs, a.2.2 = i → a.1 ≠ .SUBJ ∧ a.1 ≠ .OBJ ∧ a.1 ≠ .AND ∧ a.1 ≠ .OR) ∧
      ∀ a ∈ d.arcs, a.2.1 = i → a.1 ≠ .PROP ∧ a.1 ≠ .IPROP ∧ a.1 ≠ .EXIST ∧ a.1 ≠ .PART) :
    Main demoLogic d.tokens d.tags d.tree i := by
  refine ⟨w, hv, ?_, ?_, ?_⟩
  · intro l p q
    rw [Demo.mem h] at q
    exact k.1 _ q rfl
  · intro l p q
    rw [Demo.mem h] at q
    have := k.2 _ q rfl
    exact ⟨this.1, this.2.1, this.2.2.1⟩
  · rintro ⟨j, tok, -, q, -⟩
    rw [Demo.mem h] at q
    exact (k.2 _ q rfl).2.2.2 rfl

theorem Demo.coVerb {d : Demo} (h : d.Parsed) {v i : Nat} (w : Word d.tree i) (hv : d.tags[i]? = some .VERB)
    (k : ((.AND, v, i) ∈ d.arcs ∨ (.OR, v, i) ∈ d.arcs) ∧
      ∀ a ∈ d.arcs, a.2.1 = i → a.1 ≠ .SUBJ ∧ a.1 ≠ .PROP ∧ a.1 ≠ .IPROP ∧ a.1 ≠ .EXIST ∧ a.1 ≠ .PART) :
    CoVerb demoLogic d.tokens d.tags d.tree v i := by
  refine ⟨w, hv, ?_, ?_, ?_, ?_⟩
  · rw [Demo.mem h, Demo.mem h]
    exact k.1
  · intro x q
    rw [Demo.mem h] at q
    exact (k.2 _ q rfl).1 rfl
  · intro l p q
    rw [Demo.mem h] at q
    have := k.2 _ q rfl
    exact ⟨this.2.1, this.2.2.1, this.2.2.2.1⟩
  · rintro ⟨j, tok, -, q, -⟩
    rw [Demo.mem h] at q
    exact (k.2 _ q rfl).2.2.2.2 rfl

theorem Demo.noParts {d : Demo} (h : d.Parsed) {i : Nat} (k : ∀ a ∈ d.arcs, a.2.1 = i → a.1 ≠ .PART) :
    PartWords demoLogic.lower d.tokens (d.tree.children i) i [] := by
  refine ⟨[], [], List.Pairwise.nil, ?_, .nil, rfl⟩
  rw [List.filter_eq_nil_iff.mpr]
  · exact List.Perm.nil
  · rintro ⟨l, x⟩ q
    rw [Demo.mem h] at q
    simp [k _ q rfl]

/-- "Foxes bake no formats and format foxes." -/
def bakers : Demo where
  tokens := [c!"Foxes", c!"bake", c!"no", c!"formats", c!"and", c!"format", c!"foxes"]
  tags := [.NOUN, .VERB, .DET, .NOUN, .CONJ, .VERB, .NOUN]
  deps := [.SUBJ, .ROOT, .NEG, .OBJ, .NODEP, .AND, .OBJ]
  trans := [(0, 1, .LEFT), (2, 3, .LEFT), (1, 3, .RIGHT), (3, 5, .REDUCE), (1, 5, .RIGHT), (5, 6, .RIGHT)]
  root := 1
  arcs := [(.SUBJ, 1, 0), (.NEG, 3, 2), (.OBJ, 1, 3), (.AND, 1, 5), (.OBJ, 5, 6)]

theorem bakers_parsed : bakers.Parsed := by decide +kernel

/-- A noun whose complements follow it is called by its lemma. -/
theorem Demo.noun {d : Demo} (h : d.Parsed) {i : Nat} (tok s l : Str) (x : Option Suffix)
    (h1 : d.tokens[i]? = some tok) (h2 : d.tags[i]? = some .NOUN)
    (h3 : standardize demoLogic.lemmatizer.lm (demoLogic.lower tok) = .ok s) (h4 : demoLogic.lemmatizer.call s .NOUN = .ok (l, x))
    (k : ∀ a ∈ d.arcs, a.1 = .CPL → a.2.1 = i → i < a.2.2 ∧ d.IsWord a.2.2) :
    Called ck demoLogic d.tokens d.tags d.tree i ⟨l, c!"N", true⟩ :=
  ⟨l, .NOUN, l, ⟨s, .NOUN, x, ⟨tok, h1, h3⟩, h2, h4⟩, h2, by decide, .noun (by decide) (by decide) (by decide) (by decide), rfl,
    .inl ⟨rfl, .inr (.inr (.inl fun j hj => by
      rw [Demo.mem h] at hj
      have := k _ hj rfl rfl
      exact .inr ⟨Demo.word h this.2, .inl this.1⟩))⟩, rfl⟩

/-- A pronoun is called by its subject form. -/
theorem Demo.pron {d : Demo} {i : Nat} (tok s l w : Str) (x : Option Suffix)
    (h1 : d.tokens[i]? = some tok) (h2 : d.tags[i]? = some .PRON)
    (h3 : standardize demoLogic.lemmatizer.lm (demoLogic.lower tok) = .ok s) (h4 : demoLogic.lemmatizer.call s .PRON = .ok (l, x))
    (k : w = (subjectOf l).getD l) : Called ck demoLogic d.tokens d.tags d.tree i ⟨w, c!"O", true⟩ :=
  ⟨l, .PRON, l, ⟨s, .PRON, x, ⟨tok, h1, h3⟩, h2, h4⟩, h2, by decide, .pron, rfl, .inl ⟨rfl, .inr (.inl (by decide))⟩, k⟩

example : STuple.mk [⟨c!"fox", c!"N", true⟩, ⟨c!"bake", c!"T", false⟩, ⟨c!"format", c!"N", true⟩] ∈ bakers.tuples ck := by
  have h := bakers_parsed
  have w0 : Word bakers.tree 0 := Demo.word h (by decide)
  have w1 : Word bakers.tree 1 := Demo.word h (by decide)
  have w3 : Word bakers.tree 3 := Demo.word h (by decide)
  have c0 : Called ck demoLogic bakers.tokens bakers.tags bakers.tree 0 ⟨c!"fox", c!"N", true⟩ :=
    Demo.noun h c!"Foxes" c!"foxes" _ (some .PLURAL) rfl rfl (by decide +kernel) (by decide +kernel) (by decide)
  have c3 : Called ck demoLogic bakers.tokens bakers.tags bakers.tree 3 ⟨c!"format", c!"N", true⟩ :=
    Demo.noun h c!"formats" c!"formats" _ (some .PLURAL) rfl rfl (by decide +kernel) (by decide +kernel) (by decide)
  have := C105_transitive (Demo.reports h) (v := 1) (w := c!"bake") (Demo.main h w1 rfl (by decide))
    ⟨c!"bake", [], rfl, ⟨c!"bake", .VERB, none, ⟨c!"bake", rfl, by decide +kernel⟩, rfl, by decide +kernel⟩,
      Demo.noParts h (by decide), rfl⟩
    ⟨(Demo.mem h _ _ _).mpr (by decide), w0, c0, Or.inl rfl, w0, c0⟩
    ⟨(Demo.mem h _ _ _).mpr (by decide), w3, c3, Or.inl rfl, w3, c3⟩ (fun _ => by decide) (by decide)
  rwa [show affirmed [positive bakers.tree 0, positive bakers.tree 1, positive bakers.tree 3] = false by decide +kernel] at this

/-- "… and format foxes": the coordinated verb. -/
example : STuple.mk [⟨c!"fox", c!"N", true⟩, ⟨c!"format", c!"T", true⟩, ⟨c!"fox", c!"N", true⟩] ∈ bakers.tuples ck := by
  have h := bakers_parsed
  have w0 : Word bakers.tree 0 := Demo.word h (by decide)
  have w1 : Word bakers.tree 1 := Demo.word h (by decide)
  have w5 : Word bakers.tree 5 := Demo.word h (by decide)
  have w6 : Word bakers.tree 6 := Demo.word h (by decide)
  have c0 : Called ck demoLogic bakers.tokens bakers.tags bakers.tree 0 ⟨c!"fox", c!"N", true⟩ :=
    Demo.noun h c!"Foxes" c!"foxes" _ (some .PLURAL) rfl rfl (by decide +kernel) (by decide +kernel) (by decide)
  have c6 : Called ck demoLogic bakers.tokens bakers.tags bakers.tree 6 ⟨c!"fox", c!"N", true⟩ :=
    Demo.noun h c!"foxes" c!"foxes" _ (some .PLURAL) rfl rfl (by decide +kernel) (by decide +kernel) (by decide)
  have := C105_coordinated_verb (Demo.reports h) (v := 1) (v' := 5) (w := c!"bake") (w' := c!"format")
    (Demo.main h w1 rfl (by decide))
    ⟨c!"bake", [], rfl, ⟨c!"bake", .VERB, none, ⟨c!"bake", rfl, by decide +kernel⟩, rfl, by decide +kernel⟩,
      Demo.noParts h (by decide), rfl⟩
    (Demo.coVerb h w5 rfl (by decide))
    ⟨c!"format", [], rfl, ⟨c!"format", .VERB, none, ⟨c!"format", rfl, by decide +kernel⟩, rfl, by decide +kernel⟩,
      Demo.noParts h (by decide), rfl⟩
    ⟨(Demo.mem h _ _ _).mpr (by decide), w0, c0, Or.inl rfl, w0, c0⟩
    ⟨(Demo.mem h _ _ _).mpr (by decide), w6, c6, Or.inl rfl, w6, c6⟩ (fun _ => by decide) (by decide)
  rwa [show affirmed [positive bakers.tree 0, positive bakers.tree 5, positive bakers.tree 6] = true by decide +kernel] at this

/-- "Format foxes bake formats." -/
def formatFoxes : Demo where
  tokens := [c!"Format", c!"foxes", c!"bake", c!"formats"]
  tags := [.NOUN, .NOUN, .VERB, .NOUN]
  deps := [.CPL, .SUBJ, .ROOT, .OBJ]
  trans := [(0, 1, .LEFT), (1, 2, .LEFT), (2, 3, .RIGHT)]
  root := 2
  arcs := [(.CPL, 1, 0), (.SUBJ, 2, 1), (.OBJ, 2, 3)]

theorem formatFoxes_parsed : formatFoxes.Parsed := by decide +kernel

/-- With chunking, "format foxes" are called "format fox". -/
theorem formatFoxes_called : Called true demoLogic formatFoxes.tokens formatFoxes.tags formatFoxes.tree 1
    ⟨c!"format fox", c!"N", true⟩ := by
  have h := formatFoxes_parsed
  have l0 : LemmaOf demoLogic formatFoxes.tokens formatFoxes.tags 0 c!"format" :=
    ⟨c!"format", .NOUN, none, ⟨c!"Format", rfl, by decide +kernel⟩, rfl, by decide +kernel⟩
  have l1 : LemmaOf demoLogic formatFoxes.tokens formatFoxes.tags 1 c!"fox" :=
    ⟨c!"foxes", .NOUN, some .PLURAL, ⟨c!"foxes", rfl, by decide +kernel⟩, rfl, by decide +kernel⟩
  have p10 : PartOf demoLogic formatFoxes.tokens formatFoxes.tags formatFoxes.tree 1 0 :=
    { arc := (Demo.mem h _ _ _).mpr (by decide)
      before := by decide
      word := Demo.word h (by decide)
      noun := ⟨.NOUN, _, rfl, l0, Or.inl ⟨by decide, Or.inl (by simp [demoLogic, demoLemmatizer, bareLemmatizer])⟩⟩
      unmarked := by
        intro l x q
        rw [Demo.mem h] at q
        have k : ∀ a ∈ formatFoxes.arcs, a.2.1 ≠ 0 := by decide
        exact absurd rfl (k _ q) }
  have arcs : ∀ {j x}, (Dep.CPL, x) ∈ formatFoxes.tree.children j → j = 1 ∧ x = 0 := by
    intro j x q
    rw [Demo.mem h] at q
    have k : ∀ a ∈ formatFoxes.arcs, a.1 = .CPL → a.2 = (1, 0) := by decide
    have := k _ q rfl
    simpa using this
  refine ⟨c!"fox", .NOUN, c!"format fox", l1, rfl, by decide, .noun (by decide) (by decide) (by decide) (by decide), rfl,
    Or.inr ⟨rfl, rfl, fun p q => absurd (arcs q).2 (by decide), [0, 1], [c!"format", c!"fox"], by decide, fun j => ?_, ?_,
      .cons l0 (.cons l1 .nil), by decide⟩, rfl⟩
  · constructor
    · intro hj
      simp only [List.mem_cons, List.not_mem_nil, or_false] at hj
      rcases hj with rfl | rfl
      · exact .single p10
      · exact .refl
    · intro hj
      induction hj with
      | refl => decide
      | tail _ q _ => rw [(arcs q.arc).2]; decide
  · intro j _ x q
    obtain ⟨rfl, rfl⟩ := arcs q
    exact Or.inl p10

example : STuple.mk [⟨c!"format fox", c!"N", true⟩, ⟨c!"bake", c!"T", true⟩, ⟨c!"format", c!"N", true⟩] ∈ formatFoxes.tuples true := by
  have h := formatFoxes_parsed
  have w1 : Word formatFoxes.tree 1 := Demo.word h (by decide)
  have w2 : Word formatFoxes.tree 2 := Demo.word h (by decide)
  have w3 : Word formatFoxes.tree 3 := Demo.word h (by decide)
  have c3 : Called true demoLogic formatFoxes.tokens formatFoxes.tags formatFoxes.tree 3 ⟨c!"format", c!"N", true⟩ :=
    Demo.noun h c!"formats" c!"formats" _ (some .PLURAL) rfl rfl (by decide +kernel) (by decide +kernel) (by decide)
  have := C105_transitive (Demo.reports h) (v := 2) (w := c!"bake") (Demo.main h w2 rfl (by decide))
    ⟨c!"bake", [], rfl, ⟨c!"bake", .VERB, none, ⟨c!"bake", rfl, by decide +kernel⟩, rfl, by decide +kernel⟩,
      Demo.noParts h (by decide), rfl⟩
    ⟨(Demo.mem h _ _ _).mpr (by decide), w1, formatFoxes_called, Or.inl rfl, w1, formatFoxes_called⟩
    ⟨(Demo.mem h _ _ _).mpr (by decide), w3, c3, Or.inl rfl, w3, c3⟩ (fun _ => by decide) (by decide)
  rwa [show affirmed [positive formatFoxes.tree 1, positive formatFoxes.tree 2, positive formatFoxes.tree 3] = true
    by decide +kernel] at this

/-- "Foxes who bake themselves are not baked by formats." -/
def bakedFoxes : Demo where
  tokens := [c!"Foxes", c!"who", c!"bake", c!"themselves", c!"are", c!"not", c!"baked", c!"by", c!"formats"]
  tags := [.NOUN, .PRON, .VERB, .PRON, .VERB, .ADV, .ADJ, .PREP, .NOUN]
  deps := [.SUBJ, .SUBJ, .CPL, .OBJ, .ROOT, .NEG, .PROP, .MARK, .CPL]
  trans := [(1, 2, .LEFT), (0, 2, .RIGHT), (2, 3, .RIGHT), (3, 4, .REDUCE), (2, 4, .REDUCE), (0, 4, .LEFT), (4, 5, .RIGHT),
    (5, 6, .REDUCE), (4, 6, .RIGHT), (7, 8, .LEFT), (6, 8, .RIGHT)]
  root := 4
  arcs := [(.SUBJ, 2, 1), (.CPL, 0, 2), (.OBJ, 2, 3), (.SUBJ, 4, 0), (.NEG, 4, 5), (.PROP, 4, 6), (.MARK, 8, 7), (.CPL, 6, 8)]

theorem bakedFoxes_parsed : bakedFoxes.Parsed := by decide +kernel

theorem bakedFoxes_tuples : ∀ ck, (bakedFoxes.tuples ck).map (fun x => x.flatten true) =
    [c!"NCL(fox, NOT be, baked)", c!"NTN(format, bake, fox)", c!"NTO(fox, bake, who)", c!"OCL(who, be, baked)"] := by
  decide +kernel

theorem foxes_called : Called ck demoLogic bakedFoxes.tokens bakedFoxes.tags bakedFoxes.tree 0 ⟨c!"fox", c!"N", true⟩ :=
  Demo.noun bakedFoxes_parsed c!"Foxes" c!"foxes" _ (some .PLURAL) rfl rfl (by decide +kernel) (by decide +kernel) (by decide)

theorem bakedFoxes_by : ByAgent ck demoLogic bakedFoxes.tokens bakedFoxes.tags bakedFoxes.tree 4 0 0 6 8 8 c!"bake" []
    ⟨c!"fox", c!"N", true⟩ ⟨c!"format", c!"N", true⟩ := by
  have h := bakedFoxes_parsed
  have w0 : Word bakedFoxes.tree 0 := Demo.word h (by decide)
  have w4 : Word bakedFoxes.tree 4 := Demo.word h (by decide)
  have w6 : Word bakedFoxes.tree 6 := Demo.word h (by decide)
  have w8 : Word bakedFoxes.tree 8 := Demo.word h (by decide)
  have c8 : Called ck demoLogic bakedFoxes.tokens bakedFoxes.tags bakedFoxes.tree 8 ⟨c!"format", c!"N", true⟩ :=
    Demo.noun h c!"formats" c!"formats" _ (some .PLURAL) rfl rfl (by decide +kernel) (by decide +kernel) (by decide)
  have one : ∀ {l : Dep} {p x : Nat}, (∀ a ∈ bakedFoxes.arcs, a.1 = l → a.2.1 = p → a.2.2 = x) →
      ∀ y, (l, y) ∈ bakedFoxes.tree.children p → y = x := by
    intro l p x k y q
    rw [Demo.mem h] at q
    exact k _ q rfl rfl
  exact {
    word := w4
    said := ⟨c!"be", c!"be", [], rfl, ⟨c!"are", .VERB, _, ⟨c!"are", rfl, by decide +kernel⟩, rfl,
      show demoLogic.lemmatizer.call c!"are" .VERB = .ok (c!"be", none) by decide +kernel⟩,
      Demo.noParts h (by decide), rfl⟩
    subj := ⟨_, ⟨(Demo.mem h _ _ _).mpr (by decide), w0, foxes_called, Or.inl rfl, w0, foxes_called⟩, fun _ => by decide⟩
    one := one (by decide)
    prop := (Demo.mem h _ _ _).mpr (by decide)
    word' := w6
    adj := ⟨⟨c!"baked", c!"L", true⟩, c!"baked", c!"baked", [], c!"bake", some .PAST, ⟨c!"baked", rfl, by decide +kernel⟩, rfl,
      ⟨c!"baked", .ADJ, none, ⟨c!"baked", rfl, by decide +kernel⟩, rfl, by decide +kernel⟩, by decide,
      Demo.noParts h (by decide), by decide +kernel, rfl, rfl, by decide⟩
    unmarked := by
      intro l x q
      rw [Demo.mem h] at q
      have k : ∀ a ∈ bakedFoxes.arcs, a.2.1 = 6 → a.1 ≠ .MARK ∧ a.1 ≠ .CMARK ∧ a.1 ≠ .IMARK := by decide
      exact k _ q rfl
    participle := ⟨c!"baked", ⟨c!"baked", rfl, by decide +kernel⟩, by decide +kernel⟩
    notEmpty := by decide
    parts := Demo.noParts h (by decide)
    agent := ⟨_, (Demo.mem h _ _ _).mpr (by decide), w8, c8, Or.inl rfl, w8, c8⟩
    by_ := ⟨7, c!"by", (Demo.mem h _ _ _).mpr (by decide), one (by decide), by
      intro y q
      rw [Demo.mem h] at q
      have k : ∀ a ∈ bakedFoxes.arcs, a.2.1 = 7 → a.1 ≠ .FLAT := by decide
      exact k _ q rfl rfl, rfl, by decide +kernel⟩ }

/-- The expectation of C106. -/
def ActiveFormNegated (ck : Bool) : Prop :=
  ∀ (c : Logic) (tokens : List Str) (tg : List Tag) (t : Tree Dep Nat) (ts : List STuple), Reported ck c tokens tg t ts →
    ∀ (v s s' p x x' : Nat) (l : Str) (ps : List Str) (a d : Argument), ByAgent ck c tokens tg t v s s' p x x' l ps a d →
      STuple.mk [d, ⟨List.intercalate c!" " (l :: ps), c!"T",
        affirmed [positive t x', positive t v, positive t p, positive t s']⟩, a] ∈ ts

/-- **C106** (negation). "Foxes are not baked by formats" is reported as "format bake fox", affirmatively. -/
theorem C106_negated_passive_false (ck : Bool) : ¬ ActiveFormNegated ck ∧
    STuple.mk [⟨c!"format", c!"N", true⟩, ⟨c!"bake", c!"T", true⟩, ⟨c!"fox", c!"N", true⟩] ∈ bakedFoxes.tuples ck := by
  refine ⟨fun h => ?_, by cases ck <;> decide +kernel⟩
  have := h _ _ _ _ _ (Demo.reported bakedFoxes_parsed) _ _ _ _ _ _ _ _ _ _ bakedFoxes_by
  cases ck <;> revert this <;> decide +kernel

/-- The expectation of C107 for relative clauses: "people who hurt themselves" hurt people. -/
def SelfMeantInRelatives (ck : Bool) : Prop :=
  ∀ (c : Logic) (tokens : List Str) (tg : List Tag) (t : Tree Dep Nat) (ts : List STuple), Reported ck c tokens tg t ts →
    ∀ (n n' n'' v s : Nat) (w : Str) (a a' : Argument), WhoClause ck c tokens tg t n v s → SelfClause ck c tokens tg t v s w →
      Member t n n' → Word t n' → Called ck c tokens tg t n' a → Member t n n'' → Word t n'' → Called ck c tokens tg t n'' a' →
      STuple.mk [a, ⟨w, c!"T", affirmed [positive t n', positive t v, positive t n'']⟩, a'] ∈ ts

/-- **C107** (negation). Of "foxes who bake themselves" it is reported that foxes bake who. -/
theorem C107_relative_false (ck : Bool) : ¬ SelfMeantInRelatives ck ∧
    STuple.mk [⟨c!"fox", c!"N", true⟩, ⟨c!"bake", c!"T", true⟩, ⟨c!"who", c!"O", true⟩] ∈ bakedFoxes.tuples ck := by
  refine ⟨fun H => ?_, by cases ck <;> decide +kernel⟩
  have h := bakedFoxes_parsed
  have w0 : Word bakedFoxes.tree 0 := Demo.word h (by decide)
  have w1 : Word bakedFoxes.tree 1 := Demo.word h (by decide)
  have w2 : Word bakedFoxes.tree 2 := Demo.word h (by decide)
  have w3 : Word bakedFoxes.tree 3 := Demo.word h (by decide)
  have := H _ _ _ _ _ (Demo.reported h) 0 0 0 2 1 c!"bake" _ _
    { noun := w0
      called := ⟨_, foxes_called⟩
      arc := (Demo.mem h _ _ _).mpr (by decide)
      unmarked := by
        intro l x q
        rw [Demo.mem h] at q
        have k : ∀ a ∈ bakedFoxes.arcs, a.2.1 = 2 → a.1 ≠ .MARK ∧ a.1 ≠ .CMARK ∧ a.1 ≠ .IMARK := by decide
        exact k _ q rfl
      subj := (Demo.mem h _ _ _).mpr (by decide)
      word := w1
      pron := rfl
      relative := ⟨⟨c!"who", c!"O", true⟩, Demo.pron c!"who" c!"who" c!"who" _ none rfl rfl
        (by decide +kernel) (by decide +kernel) (by decide +kernel), by decide⟩ }
    { toMain := Demo.main h w2 rfl (by decide)
      said := ⟨c!"bake", [], rfl, ⟨c!"bake", .VERB, none, ⟨c!"bake", rfl, by decide +kernel⟩, rfl, by decide +kernel⟩,
        Demo.noParts h (by decide), rfl⟩
      subj := (Demo.mem h _ _ _).mpr (by decide)
      oneSubj := by
        intro x q
        rw [Demo.mem h] at q
        have k : ∀ a ∈ bakedFoxes.arcs, a.1 = .SUBJ → a.2.1 = 2 → a.2.2 = 1 := by decide
        exact k _ q rfl rfl
      obj := ⟨3, ⟨c!"themselves", c!"O", true⟩, (Demo.mem h _ _ _).mpr (by decide), w3,
        Demo.pron c!"themselves" c!"themselves" c!"themselves" _ none rfl rfl (by decide +kernel) (by decide +kernel)
          (by decide +kernel), by decide⟩ }
    (Or.inl rfl) w0 foxes_called (Or.inl rfl) w0 foxes_called
  cases ck <;> revert this <;> decide +kernel

end Props
