import Verif.Lemmas.Statements
import Verif.Spec.Clauses

/-! Lemmas for clauses as objects. -/

namespace Model
open Py Spec

variable {c : Logic} {tokens : List Str} {tg : List Tag} {t : Tree Dep Nat} {h h' : Heap} {nt : Tree Dep Ref}
  {nodes : List Ref} {pos : Dict Nat Ref}

theorem Linked.objClause (L : Linked ck c tokens tg t h nt nodes pos) (A : ArgsFound h nt nodes h') {v o₀ o : Nat} {u : Str}
    {rv : Ref} (hv : (v, rv) ∈ pos) (H : ObjClause c tokens tg t v o₀ o u) :
    ∃ r₀ ro u₀, VerbNode t h h' nodes pos o₀ u₀ r₀ ∧ VerbNode t h h' nodes pos o u ro ∧ nt.parent r₀ = some (.OBJ, rv) ∧
      Group nt nodes r₀ ro ∧ ro ∈ (h'.node rv).objs := by
  obtain ⟨u₀, s₀, hu₀⟩ := H.verb₀
  obtain ⟨r₀, V₀, -⟩ := L.verb A H.word₀ s₀
  obtain ⟨ro, V, -⟩ := L.verb A H.word H.said
  have hp := L.parent H.word₀ hv V₀.pos H.arc
  have hg := L.group V₀.pos V₀.mem V.pos H.member
  refine ⟨r₀, ro, u₀, V₀, V, hp, hg, ?_⟩
  rw [A.objs]
  refine Or.inl ⟨rv, r₀, r₀, V₀.mem, hp, Or.inr (Or.inr ⟨?_, ?_, rfl⟩), hg, Or.inl rfl⟩
  · rintro y ⟨k, -⟩
    rw [V₀.tag] at k
    cases k
  · rintro y ⟨k, -⟩
    unfold Spec.Reflexive at k
    rw [← (ArgsFound_keeps A r₀).2.1, V₀.canon'] at k
    exact hu₀ k

/-- Arcs to a clause that is an object, or coordinated to one. -/
theorem ObjClause.label (L : Linked ck c tokens tg t h nt nodes pos) {v o₀ o : Nat} {u : Str}
    (H : ObjClause c tokens tg t v o₀ o u) : (∀ d p, (d, o₀) ∈ t.children p → d = .OBJ) ∧
      ∀ d p, (d, o) ∈ t.children p → (d = .OBJ ∧ o = o₀) ∨ ((d = .AND ∨ d = .OR) ∧ p = o₀) := by
  have k : ∀ d p, (d, o₀) ∈ t.children p → d = .OBJ := fun d p q => L.label q H.arc
  refine ⟨k, fun d p q => ?_⟩
  rcases H.member with rfl | m | m
  · exact Or.inl ⟨k _ _ q, rfl⟩
  · exact Or.inr ⟨Or.inl (L.label q m), H.word.one _ _ _ _ q m⟩
  · exact Or.inr ⟨Or.inr (L.label q m), H.word.one _ _ _ _ q m⟩

theorem Linked.clauseNoObj (L : Linked ck c tokens tg t h nt nodes pos) (A : ArgsFound h nt nodes h') {v o₀ o : Nat} {u : Str}
    {ro : Ref} (H : ObjClause c tokens tg t v o₀ o u) (ho : (o, ro) ∈ pos) (h1 : ∀ x, (.OBJ, x) ∉ t.children o)
    (h2 : ∀ x, (.OBJ, x) ∉ t.children o₀) : (h'.node ro).objs = [] := by
  obtain ⟨l1, l2⟩ := ObjClause.label L H
  rw [List.eq_nil_iff_forall_not_mem]
  intro x
  rw [A.objs]
  have shares : ∀ verb, SharesObj nt nodes verb ro → ∃ k, (k, verb) ∈ pos ∧ (k = o ∨ k = o₀) := by
    rintro verb (e | ⟨⟨-, k | k⟩, -⟩)
    · subst e
      exact ⟨o, ho, Or.inl rfl⟩
    all_goals
      obtain ⟨k, k', k1, k2, k3⟩ := L.arc.mp k
      have := L.inj k2 ho
      subst this
      rcases l2 _ _ k3 with ⟨e, -⟩ | ⟨-, e⟩
      · cases e
      · exact ⟨k, k1, Or.inr e⟩
  rintro (⟨verb, node, ref, -, hp, -, -, hsh⟩ | ⟨verb, p, subj, -, hp, -, -, -, -, -, -, hsh⟩)
  · obtain ⟨k, k1, k2⟩ := shares _ hsh
    obtain ⟨w', -, q⟩ := L.child k1 (L.parMem hp)
    rcases k2 with rfl | rfl
    · exact h1 _ q
    · exact h2 _ q
  · obtain ⟨k, k1, k2⟩ := shares _ hsh
    obtain ⟨w', -, q⟩ := L.above k1 hp
    rcases k2 with rfl | rfl
    · rcases l2 _ _ q with ⟨e, -⟩ | ⟨e | e, -⟩ <;> cases e
    · cases l1 _ _ q

theorem Linked.clauseNoSubj (L : Linked ck c tokens tg t h nt nodes pos) (A : ArgsFound h nt nodes h') {v o₀ o : Nat} {u : Str}
    {ro : Ref} (H : ObjClause c tokens tg t v o₀ o u) (ho : (o, ro) ∈ pos) (h1 : ∀ x, (.SUBJ, x) ∉ t.children o)
    (h2 : ∀ x, (.SUBJ, x) ∉ t.children o₀) : (h'.node ro).subjs = [] := by
  obtain ⟨l1, l2⟩ := ObjClause.label L H
  rw [List.eq_nil_iff_forall_not_mem]
  intro x
  rw [A.subjs]
  have shares : ∀ verb, SharesSubj nt nodes verb ro → ∃ k, (k, verb) ∈ pos ∧ (k = o ∨ k = o₀) := by
    rintro verb (e | ⟨⟨-, k | k⟩, -⟩)
    · subst e
      exact ⟨o, ho, Or.inl rfl⟩
    all_goals
      obtain ⟨k, k', k1, k2, k3⟩ := L.arc.mp k
      have := L.inj k2 ho
      subst this
      rcases l2 _ _ k3 with ⟨e, -⟩ | ⟨-, e⟩
      · cases e
      · exact ⟨k, k1, Or.inr e⟩
  rintro (⟨verb, node, ref, -, hp, -, -, hsh⟩ | ⟨verb, p, subj, -, hp, -, -, -, -, -, -, hsh⟩)
  · obtain ⟨k, k1, k2⟩ := shares _ hsh
    obtain ⟨w', -, q⟩ := L.child k1 (L.parMem hp)
    rcases k2 with rfl | rfl
    · exact h1 _ q
    · exact h2 _ q
  · obtain ⟨k, k1, k2⟩ := shares _ hsh
    obtain ⟨w', -, q⟩ := L.above k1 hp
    rcases k2 with rfl | rfl
    · rcases l2 _ _ q with ⟨e, -⟩ | ⟨e | e, -⟩ <;> cases e
    · cases l1 _ _ q

theorem Linked.sharesSubj (L : Linked ck c tokens tg t h nt nodes pos) {o₀ o : Nat} {r₀ ro : Ref} (h₀ : (o₀, r₀) ∈ pos)
    (hm : r₀ ∈ nodes) (ho : (o, ro) ∈ pos) (hmem : Member t o₀ o) (hno : o = o₀ ∨ ∀ y, (.SUBJ, y) ∉ t.children o) :
    SharesSubj nt nodes r₀ ro := by
  rcases hno with rfl | hno
  · exact Or.inl (L.fn ho h₀)
  rcases hmem with rfl | m | m
  · exact Or.inl (L.fn ho h₀)
  · refine Or.inr ⟨⟨hm, Or.inl (L.arc.mpr ⟨_, _, h₀, ho, m⟩)⟩, ?_⟩
    rintro ⟨y, k⟩
    obtain ⟨z, -, k'⟩ := L.child ho k
    exact hno _ k'
  · refine Or.inr ⟨⟨hm, Or.inr (L.arc.mpr ⟨_, _, h₀, ho, m⟩)⟩, ?_⟩
    rintro ⟨y, k⟩
    obtain ⟨z, -, k'⟩ := L.child ho k
    exact hno _ k'

/-- Who sings, when people want children to sing. -/
theorem Linked.clauseSubj (L : Linked ck c tokens tg t h nt nodes pos) (A : ArgsFound h nt nodes h') {v o₀ o s' x' : Nat}
    {u : Str} {a a' : Argument} {rv r₀ ro rs : Ref} (H : ObjClause c tokens tg t v o₀ o u) (hv : (v, rv) ∈ pos)
    (hvt : (h.node rv).tag = .VERB) (hrv : nt.parent r₀ = some (.OBJ, rv)) (h₀ : (o₀, r₀) ∈ pos) (hm : r₀ ∈ nodes)
    (ho : (o, ro) ∈ pos) (N : NounNode tg t h h' nodes pos s' a rs) (S : ClauseSinger ck c tokens tg t v o₀ o s' a x' a') :
    ∃ r, NounNode tg t h h' nodes pos x' a' r ∧ ClauseSubj h' rs ro r := by
  obtain ⟨l1, l2⟩ := ObjClause.label L H
  cases S with
  | @own q x x' a₀ a' hq hs hrefl =>
    have hqp : ∃ rq, (q, rq) ∈ pos ∧ SharesSubj nt nodes rq ro := by
      rcases hq with rfl | ⟨rfl, hno⟩
      · exact ⟨ro, ho, Or.inl rfl⟩
      · exact ⟨r₀, h₀, L.sharesSubj h₀ hm ho H.member (Or.inr hno)⟩
    obtain ⟨rq, hrq, hsh⟩ := hqp
    obtain ⟨r, r', R, R', hp, hg⟩ := L.stands A hrq hs (by simp)
    have hcpl : ∀ n, (.CPL, q) ∉ t.children n := by
      intro n k
      rcases hq with rfl | ⟨rfl, -⟩
      · rcases l2 _ _ k with ⟨e, -⟩ | ⟨e | e, -⟩ <;> cases e
      · cases l1 _ _ k
    have hmem : r' ∈ (h'.node ro).subjs := by
      rw [A.subjs]
      refine Or.inl ⟨rq, r, r, R.mem, hp, Or.inr (Or.inr ⟨L.notRel hrq R fun ⟨n, k⟩ => absurd k (hcpl n), ?_, rfl⟩), hg, hsh⟩
      rintro y ⟨k, -⟩
      unfold Spec.Reflexive at k
      rw [R.canon] at k
      exact hrefl k
    exact ⟨r', R', Or.inr ⟨List.ne_nil_of_mem hmem, hmem, R'.nominal'⟩⟩
  | @self x s x' a₀ b₀ a' hno hx wx cx hrefl hone hs =>
    obtain ⟨r, R⟩ := L.noun A wx cx (Or.inl (Or.inl ⟨_, _, hx, by simp⟩))
    obtain ⟨q, q', Q, Q', hp, hg⟩ := L.stands A hv hs (by simp)
    have hcpl : ∀ n, (.CPL, o₀) ∉ t.children n := by
      intro n k
      cases l1 _ _ k
    have hmem : q' ∈ (h'.node ro).subjs := by
      rw [A.subjs]
      refine Or.inl ⟨r₀, r, q, R.mem, L.parent wx h₀ R.pos hx, Or.inr (Or.inl ⟨L.notRel h₀ R fun ⟨n, k⟩ => absurd k (hcpl n), ?_, ?_⟩),
        hg, L.sharesSubj h₀ hm ho H.member hno⟩
      · unfold Spec.Reflexive
        rw [R.canon]
        exact hrefl
      · exact ⟨rv, hrv, hvt, L.first hv Q.pos hone.1 hone.2⟩
    exact ⟨q', Q', Or.inr ⟨List.ne_nil_of_mem hmem, hmem, Q'.nominal'⟩⟩
  | main h1 h2 => exact ⟨rs, N, Or.inl ⟨L.clauseNoSubj A H ho h1 h2, rfl⟩⟩

theorem Linked.plain (L : Linked ck c tokens tg t h nt nodes pos) (A : ArgsFound h nt nodes h') {v : Nat} {r : Ref}
    (hv : (v, r) ∈ pos) (plain : ∀ d x, (d, x) ∈ t.children v → d ≠ .PROP ∧ d ≠ .IPROP ∧ d ≠ .EXIST) : Spec.Plain (h'.node r) := by
  refine ⟨?_, ?_, ?_⟩ <;> rw [List.eq_nil_iff_forall_not_mem] <;> intro x
  · rw [A.props]; exact L.attached hv (fun y hy => (plain _ _ hy).1 rfl) x
  · rw [A.iprops]; exact L.attached hv (fun y hy => (plain _ _ hy).2.1 rfl) x
  · rw [A.exist]; exact L.attached hv (fun y hy => (plain _ _ hy).2.2 rfl) x

theorem Linked.only (L : Linked ck c tokens tg t h nt nodes pos) {d : Dep} {v s : Nat} {rv r : Ref} (hv : (v, rv) ∈ pos)
    (hr : (s, r) ∈ pos) (H : Only t d v s) : FirstChild nt rv d r := L.first hv hr H.1 H.2

theorem Linked.subjectPolarity (L : Linked ck c tokens tg t h nt nodes pos) (A : ArgsFound h nt nodes h') {v : Nat} {rv : Ref}
    {l : List Bool} (hv : (v, rv) ∈ pos) (H : SubjectPolarity t v l) :
    ((nt.childrenVia rv .SUBJ).head?.map fun s => (h'.node s).isAff).toList = l := by
  rcases H with ⟨hno, rfl⟩ | ⟨s, ho, hw, rfl⟩
  · cases hl : nt.childrenVia rv .SUBJ with
    | nil => rfl
    | cons x l =>
      have : x ∈ nt.childrenVia rv .SUBJ := by rw [hl]; simp
      obtain ⟨y, -, k⟩ := L.child hv (L.viaMem.mp this)
      exact absurd k (hno _)
  · obtain ⟨r, -, -, -, -, k1, k2, -⟩ := L.word hw
    rw [show (nt.childrenVia rv .SUBJ).head? = some r from L.only hv k1 ho]
    simp [L.aff A k1 k2]

/-- The past participle with its suffix and active verb. -/
theorem Linked.pastOf (L : Linked ck c tokens tg t h nt nodes pos) (A : ArgsFound h nt nodes h') {p : Nat} {b : Argument} {l : Str}
    (hw : Word t p) (H : PastOf c tokens tg t p b l) : ∃ r, AdjNode t h h' nodes pos p b r ∧ (h.node r).suffix = some .PAST ∧
      PartWords c.lower tokens (t.children p) p (h'.node r).particles ∧
      (h'.node r).activeVerb = some (List.intercalate c!" " (l :: (h'.node r).particles)) := by
  obtain ⟨hb, sp, hsp, hl⟩ := H
  obtain ⟨r, R, r1, r2⟩ := L.adj A hw hb
  refine ⟨r, R, ?_, r1, r2 sp l hsp hl⟩
  obtain ⟨r', s, tag, l', x, k1, k2, k3, k4, k5, k6, k7, k8, k9, k10, k11⟩ := L.word hw
  have := L.fn k1 R.pos
  subst this
  obtain ⟨l₂, x₂, m1, m2, -⟩ := k11 R.tag
  have : s = sp := by
    obtain ⟨tok, p1, p2⟩ := k3
    obtain ⟨tok', q1, q2⟩ := hsp
    rw [p1] at q1; cases q1
    rw [p2] at q2; cases q2
    rfl
  subst this
  rw [hl] at m1
  obtain ⟨rfl, rfl⟩ := Prod.mk.inj (Except.ok.inj m1)
  exact m2

/-- The agents of a past participle. -/
theorem Linked.agent (L : Linked ck c tokens tg t h nt nodes pos) (A : ArgsFound h nt nodes h') {p x x' : Nat} {d₀ d : Argument}
    {q rv : Ref} (hq : (p, q) ∈ pos) (hp : nt.parent q = some (.PROP, rv) ∨ nt.parent q = some (.CPL, rv))
    (hx : Stands ck c tokens tg t .CPL p x x' d₀ d) (hby : MarkedBy c tokens t x) :
    ∃ y, NounNode tg t h h' nodes pos x' d y ∧ y ∈ (h'.node q).agents := by
  obtain ⟨m, tok, hm, hmf, htok, hlow⟩ := hby
  obtain ⟨y, Y⟩ := L.noun A hx.word hx.called (Or.inl (Or.inr ⟨_, _, hm.1, by simp, by simp⟩))
  have hst : Stable t x' := by
    rcases hx.member with rfl | hj | hj
    · exact Or.inr ⟨_, _, hm.1, by simp, by simp⟩
    · exact Or.inl ⟨_, _, hj, by simp, by simp, by simp⟩
    · exact Or.inl ⟨_, _, hj, by simp, by simp, by simp⟩
  obtain ⟨y', Y'⟩ := L.noun A hx.word' hx.called' (Or.inl hst)
  obtain ⟨rm, tok', m1, m2, m3⟩ := L.marker Y.pos hm.1 hmf
  rw [htok] at m2
  cases m2
  rw [hlow] at m3
  refine ⟨y', Y', ?_⟩
  rw [A.agents]
  exact ⟨y, rm, Y.mem, L.parent hx.word hq Y.pos hx.arc, L.only Y.pos m1 hm, m3, ⟨rv, hp⟩,
    L.group Y.pos Y.mem Y'.pos hx.member⟩

/-- In clean parses, listed nodes are those of words. -/
theorem Linked.isWord (L : Linked ck c tokens tg t h nt nodes pos) (C : Clean t) {k : Nat} {r : Ref} (hk : (k, r) ∈ pos)
    (hr : r ∈ nodes) : Word t k := by
  rcases C k (L.inTree hk) with w | ⟨d, p, hd, hm, wp⟩
  · exact w
  · obtain ⟨rp, -, -, -, -, k1, -⟩ := L.word wp
    exact absurd hd (L.kept hk hr k1 hm)

/-- A listed verb is a verb of the sentence. -/
theorem Linked.verbOf (L : Linked ck c tokens tg t h nt nodes pos) (A : ArgsFound h nt nodes h') (C : Clean t) {r : Ref}
    (hr : r ∈ nodes) (ht : (h'.node r).tag = .VERB) :
    ∃ k, (k, r) ∈ pos ∧ Word t k ∧ SaidBy c tokens tg t k (h'.node r).canon := by
  obtain ⟨k, hk⟩ := L.mem r hr
  have w := L.isWord C hk hr
  obtain ⟨r', s, tag, l, x, k1, k2, k3, k4, k5, k6, k7, k8, k9, k10, k11⟩ := L.word w
  have := L.fn k1 hk
  subst this
  obtain ⟨e1, e2, -⟩ := ArgsFound_keeps A r'
  rw [e1] at ht
  have : tag = .VERB := by
    rcases k9 with k9 | ⟨-, -, k9 | k9⟩
    · rw [← k9, ht]
    · rw [k9.2.2] at ht; cases ht
    · rw [k9.2.2] at ht; cases ht
  subst this
  refine ⟨k, hk, w, l, _, k4, ⟨s, _, x, k3, k4, k5⟩, k7, ?_⟩
  rw [e2, k10, ht]
  rfl

/-- An active verb comes from a word spelled as a past form. -/
theorem Linked.pastForm (L : Linked ck c tokens tg t h nt nodes pos) (A : ArgsFound h nt nodes h') (C : Clean t) {r : Ref} {w : Str}
    (ha : ActiveVerb (h'.node r) w) : ∃ k, PastForm c tokens t k w := by
  obtain ⟨-, -, -, -, -, e6⟩ := ArgsFound_keeps A r
  have ha1 := ha.1
  rw [e6] at ha1
  by_cases ht : r ∈ nodes ∧ (h.node r).tag = .ADJ
  · obtain ⟨hr, ht⟩ := ht
    obtain ⟨k, hk⟩ := L.mem r hr
    have hw := L.isWord C hk hr
    obtain ⟨r', s, tag, l, x, k1, k2, k3, k4, k5, k6, k7, k8, k9, k10, k11⟩ := L.word hw
    have := L.fn k1 hk
    subst this
    obtain ⟨l', x', m1, m2, m3⟩ := k11 ht
    rw [m3] at ha1
    split at ha1
    · rename_i hx
      subst hx
      exact ⟨k, hw, s, l', _, k3, m1, k7, (Option.some.inj ha1).symm⟩
    · cases ha1
  · rw [L.inactive r fun h1 h2 => ht ⟨h1, h2⟩] at ha1
    cases ha1

theorem Linked.onlyMeant (L : Linked ck c tokens tg t h nt nodes pos) (A : ArgsFound h nt nodes h') {o : Nat} {r : Ref}
    (hr : (o, r) ∈ pos) (H : OnlyMeant ck c tokens tg t o) : Embedded h' nodes r := by
  obtain ⟨v, w, s, s', a₀, a, o₀, u, hv, hw, hs, hrel, ho⟩ := H
  obtain ⟨rv, V, hh, he, -⟩ := L.main A hv hw
  obtain ⟨q, Q, hq, -⟩ := L.subj A V.pos (fun p hp => (hv.free _ _ hp).2.1 rfl) hs hrel
  obtain ⟨q₀, ro, u₀, -, R, -, -, hro⟩ := L.objClause A V.pos ho
  have := L.fn R.pos hr
  subst this
  exact ⟨q, rv, V.mem, hh, hq, Q.nominal', hro, R.tag'⟩

end Model
