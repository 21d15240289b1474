import Verif.Lemmas.ExactArgs

/-! Lemmas for exactly what a parse states: what is said of nodes is what is stated by tokens. -/

namespace Model
open Py Spec

variable {ck : Bool} {c : Logic} {tokens : List Str} {tg : List Tag} {t : Tree Dep Nat} {h h' : Heap} {nt : Tree Dep Ref}
  {nodes : List Ref} {pos : Dict Nat Ref}

section
variable (L : Linked ck c tokens tg t h nt nodes pos) (A : ArgsFound h nt nodes h') (T : NeatParse t)
include L A T

theorem Linked.wrote_iff {k : Nat} {r : Ref} (hk : At t nodes pos k r) {tag : Tag} {w : Str} :
    Exactly.Written ck c tokens tg t k tag w ↔ (h'.node r).tag = tag ∧ (h'.node r).canon = w := by
  obtain ⟨e1, e2, -⟩ := ArgsFound_keeps A r
  rw [L.written_iff T hk, e1, e2]

theorem Linked.nominal'_iff {k : Nat} {r : Ref} (hk : At t nodes pos k r) : Exactly.AsNominal c tokens tg t k ↔ Nominal h' r := by
  rw [L.nominal_iff T hk, Nominal, (ArgsFound_keeps A r).1]

theorem Linked.named_iff {k : Nat} {r : Ref} (hk : At t nodes pos k r) {a : Argument} :
    Exactly.Named ck c tokens tg t k a ↔ Nominal h' r ∧ IsNoun h' r a := by
  constructor
  · rintro ⟨tag, h1, h2, h3, h4⟩
    obtain ⟨rfl, e⟩ := (L.wrote_iff A T hk).mp h1
    exact ⟨h2, e.symm, h3, h4⟩
  · rintro ⟨h1, h2, h3, h4⟩
    exact ⟨_, (L.wrote_iff A T hk).mpr ⟨rfl, h2.symm⟩, h1, h3, h4⟩

theorem Linked.active_iff {k : Nat} {r : Ref} (hk : At t nodes pos k r) {w : Str} :
    ActiveVerb (h'.node r) w ↔ Exactly.ActiveOf c tokens tg t k w := by
  constructor
  · intro H
    obtain ⟨h1, -⟩ := (L.activeOf A hk).mp ⟨_, H⟩
    obtain ⟨h2, h3⟩ := L.activeWord A hk H
    exact ⟨(L.taken_iff T hk).mpr h1, h2, h3⟩
  · rintro ⟨h1, h2, h3⟩
    obtain ⟨u, hu⟩ := (L.activeOf A hk).mpr ⟨(L.taken_iff T hk).mp h1, w, h2, h3⟩
    obtain ⟨-, q⟩ := L.activeWord A hk hu
    obtain ⟨-, s, l, ps, ⟨tok, p1, p2⟩, p3, p4, rfl⟩ := q
    obtain ⟨-, s', l', ps', ⟨tok', q1, q2⟩, q3, q4, rfl⟩ := h3
    rw [p1] at q1; cases q1
    rw [p2] at q2; cases q2
    rw [p3] at q3; cases q3
    rw [PartWords_unique q4 p4]
    exact hu

theorem Linked.adjCode_iff {k : Nat} {r : Ref} (hk : At t nodes pos k r) {code : Str} :
    AdjCode (h'.node r) code ↔ Exactly.AdjectiveCode c tokens t k (h'.node r).tag code := by
  rw [(ArgsFound_keeps A r).1]
  refine ⟨L.participleCode A hk, ?_⟩
  rintro (⟨rfl, h1⟩ | ⟨rfl, h1⟩)
  · obtain ⟨w, hw⟩ := (L.activeOf A hk).mpr h1
    exact .pp hw
  · exact .adj fun w hw => h1 ((L.activeOf A hk).mp ⟨w, hw⟩)

theorem Linked.adj_iff {k : Nat} {r : Ref} (hk : At t nodes pos k r) {b : Argument} :
    IsAdj h' r b ↔ Exactly.GivenAdj ck c tokens tg t k b := by
  constructor
  · rintro ⟨h1, h2, h3⟩
    exact ⟨_, (L.wrote_iff A T hk).mpr ⟨rfl, h1.symm⟩, (L.adjCode_iff A T hk).mp h2, h3⟩
  · rintro ⟨tag, h1, h2, h3⟩
    obtain ⟨rfl, e⟩ := (L.wrote_iff A T hk).mp h1
    exact ⟨e.symm, (L.adjCode_iff A T hk).mpr h2, h3⟩

theorem Linked.prop_iff {k : Nat} {r : Ref} (hk : At t nodes pos k r) {tag : Tag} {b : Argument} :
    ((h'.node r).tag = tag ∧ IsProp h' r b) ↔ Exactly.GivenProp ck c tokens tg t k tag b := by
  constructor
  · rintro ⟨rfl, h1, h2, h3⟩
    refine ⟨(L.wrote_iff A T hk).mpr ⟨rfl, h1.symm⟩, ?_, h3⟩
    exact h2.imp (fun ⟨q1, q2⟩ => ⟨q1, (L.adjCode_iff A T hk).mp q2⟩) id
  · rintro ⟨h1, h2, h3⟩
    obtain ⟨rfl, e⟩ := (L.wrote_iff A T hk).mp h1
    exact ⟨rfl, e.symm, h2.imp (fun ⟨q1, q2⟩ => ⟨q1, (L.adjCode_iff A T hk).mpr q2⟩) id, h3⟩

theorem Linked.given_iff {k : Nat} {r : Ref} (hk : At t nodes pos k r) {b : Argument} :
    (((h'.node r).tag ∈ nominal ∨ (h'.node r).tag = .ADJ) ∧ IsProp h' r b) ↔ Exactly.Given ck c tokens tg t k b := by
  constructor
  · rintro ⟨h1, h2⟩
    exact ⟨_, h1, (L.prop_iff A T hk).mp ⟨rfl, h2⟩⟩
  · rintro ⟨tag, h1, h2⟩
    obtain ⟨rfl, h3⟩ := (L.prop_iff A T hk).mpr h2
    exact ⟨h1, h3⟩

theorem Linked.noneHangs {d : Dep} {v : Nat} {rv : Ref} {xs : List Ref} (hd : d ∉ functional) (hv : At t nodes pos v rv)
    (e : ∀ x, x ∈ xs ↔ AttachedBy nt nodes d rv x) : xs = [] ↔ Lacks t v d := by
  rw [List.eq_nil_iff_forall_not_mem]
  constructor
  · intro H
    exact L.lacksAttached T hv hd fun x hx => H x ((e x).mpr hx)
  · intro H x hx
    exact L.attached hv.pos H x ((e x).mp hx)

theorem Linked.plain_iff {v : Nat} {rv : Ref} (hv : At t nodes pos v rv) :
    Spec.Plain (h'.node rv) ↔ Lacks t v .PROP ∧ Lacks t v .IPROP ∧ Lacks t v .EXIST := by
  unfold Spec.Plain
  rw [L.noneHangs A T (d := .PROP) (by decide) hv (A.props rv), L.noneHangs A T (d := .IPROP) (by decide) hv (A.iprops rv),
    L.noneHangs A T (d := .EXIST) (by decide) hv (A.exist rv)]

theorem Linked.predicate_iff {v : Nat} {rv : Ref} (hv : At t nodes pos v rv) {w : Str} :
    ((h'.node rv).tag = .VERB ∧ Spec.Plain (h'.node rv) ∧ (h'.node rv).canon = w) ↔ Exactly.Predicate ck c tokens tg t v w := by
  unfold Exactly.Predicate
  rw [L.wrote_iff A T hv, L.plain_iff A T hv]
  tauto

theorem Linked.head_iff {v : Nat} {rv : Ref} (hv : At t nodes pos v rv) {w : Str} :
    (Heads h' rv ∧ (h'.node rv).canon = w) ↔ Exactly.ClauseHead ck c tokens tg t v w := by
  unfold Exactly.ClauseHead Heads
  rw [← L.predicate_iff A T hv]
  obtain ⟨-, -, -, -, e5, -⟩ := ArgsFound_keeps A rv
  obtain ⟨r', s, tag, l, x, k1, k2, k3, k4, k5, k6, k7, k8, -⟩ := L.word hv.word
  cases L.fn k1 hv.pos
  rw [e5, ← k8, Bool.not_eq_true]
  tauto

theorem Linked.subj_iff {v s : Nat} {rv rs : Ref} (hv : At t nodes pos v rv) (hs : At t nodes pos s rs) :
    rs ∈ (h'.node rv).subjs ↔ Exactly.Acts ck c tokens tg t v s := by
  rw [A.subjs, L.acts_iff T hv hs]

theorem Linked.obj_iff {v s : Nat} {rv rs : Ref} (hv : At t nodes pos v rv) (hs : At t nodes pos s rs) :
    rs ∈ (h'.node rv).objs ↔ Exactly.Undergoes ck c tokens tg t v s := by
  rw [A.objs, L.undergoes_iff T hv hs]

theorem Linked.subjTok {v : Nat} {rv rs : Ref} (hv : At t nodes pos v rv) (H : rs ∈ (h'.node rv).subjs) :
    ∃ s, At t nodes pos s rs := by
  rw [A.subjs] at H
  obtain ⟨s, hs, -⟩ := L.acts T hv H
  exact ⟨s, hs⟩

theorem Linked.objTok {v : Nat} {rv rs : Ref} (hv : At t nodes pos v rv) (H : rs ∈ (h'.node rv).objs) :
    ∃ s, At t nodes pos s rs := by
  rw [A.objs] at H
  obtain ⟨s, hs, -⟩ := L.undergoes T hv H
  exact ⟨s, hs⟩

theorem Linked.noSubj_iff {v : Nat} {rv : Ref} (hv : At t nodes pos v rv) :
    (h'.node rv).subjs = [] ↔ ∀ s, ¬ Exactly.Acts ck c tokens tg t v s := by
  rw [List.eq_nil_iff_forall_not_mem]
  constructor
  · intro H s hs
    obtain ⟨_, rs, -, hr⟩ := L.actsRefs T hs
    exact H rs ((L.subj_iff A T hv hr).mpr hs)
  · intro H rs hs
    obtain ⟨s, hr⟩ := L.subjTok A T hv hs
    exact H s ((L.subj_iff A T hv hr).mp hs)

theorem Linked.noObj_iff {v : Nat} {rv : Ref} (hv : At t nodes pos v rv) :
    (h'.node rv).objs = [] ↔ ∀ s, ¬ Exactly.Undergoes ck c tokens tg t v s := by
  rw [List.eq_nil_iff_forall_not_mem]
  constructor
  · intro H s hs
    obtain ⟨_, rs, -, hr⟩ := L.undergoesRefs T hs
    exact H rs ((L.obj_iff A T hv hr).mpr hs)
  · intro H rs hs
    obtain ⟨s, hr⟩ := L.objTok A T hv hs
    exact H s ((L.obj_iff A T hv hr).mp hs)

theorem Linked.clause_iff {s v o : Nat} {rs rv ro : Ref} (hs : At t nodes pos s rs) (hv : At t nodes pos v rv)
    (ho : At t nodes pos o ro) {w u : Str} : (Clause h' nodes rs rv ro ∧ (h'.node rv).canon = w ∧ (h'.node ro).canon = u) ↔
      Exactly.HasClause ck c tokens tg t s v o w u := by
  unfold Clause Exactly.HasClause
  rw [← L.head_iff A T hv, L.subj_iff A T hv hs, L.obj_iff A T hv ho, L.nominal'_iff A T hs, L.wrote_iff A T ho]
  have := hv.mem
  tauto

theorem Linked.clauseToks {rs rv ro : Ref} (H : Clause h' nodes rs rv ro) :
    ∃ s v o, At t nodes pos s rs ∧ At t nodes pos v rv ∧ At t nodes pos o ro := by
  obtain ⟨v, hv⟩ := L.at_mem T H.1
  obtain ⟨s, hs⟩ := L.subjTok A T hv H.2.2.1
  obtain ⟨o, ho⟩ := L.objTok A T hv H.2.2.2.2.1
  exact ⟨s, v, o, hs, hv, ho⟩

theorem Linked.clauseRefs {s v o : Nat} {w u : Str} (H : Exactly.HasClause ck c tokens tg t s v o w u) :
    ∃ rs rv ro, At t nodes pos s rs ∧ At t nodes pos v rv ∧ At t nodes pos o ro := by
  obtain ⟨-, h1, -, h2, -⟩ := H
  obtain ⟨rv, rs, hv, hs⟩ := L.actsRefs T h1
  obtain ⟨_, ro, -, ho⟩ := L.undergoesRefs T h2
  exact ⟨rs, rv, ro, hs, hv, ho⟩

theorem Linked.main_iff {v : Nat} {rv : Ref} (hv : At t nodes pos v rv) {w : Str} :
    (¬ Embedded h' nodes rv ∧ Heads h' rv ∧ (h'.node rv).canon = w) ↔ Exactly.MainClause ck c tokens tg t v w := by
  unfold Exactly.MainClause
  rw [L.head_iff A T hv, and_comm]
  refine and_congr_right fun _ => ?_
  constructor
  · intro H s v' w' u hc
    obtain ⟨rs, rv', ro, hs, hv', ho⟩ := L.clauseRefs A T hc
    cases L.fn ho.pos hv.pos
    exact H ⟨rs, rv', ((L.clause_iff A T hs hv' ho).mpr hc).1⟩
  · rintro H ⟨rs, rv', hc⟩
    obtain ⟨s, v', o, hs, hv', ho⟩ := L.clauseToks A T hc
    cases L.inj ho.pos hv.pos
    exact H s v' _ _ ((L.clause_iff A T hs hv' ho).mp ⟨hc, rfl, rfl⟩)

theorem Linked.clauseSubj_iff {s o s' : Nat} {rs ro rs' : Ref} (hs : At t nodes pos s rs) (ho : At t nodes pos o ro)
    (hs' : At t nodes pos s' rs') (hn : Nominal h' rs') : ClauseSubj h' rs ro rs' ↔ Exactly.ActsIn ck c tokens tg t s o s' := by
  unfold ClauseSubj Exactly.ActsIn
  have e : rs' = rs ↔ s' = s := ⟨by rintro rfl; exact L.inj hs'.pos hs.pos, by rintro rfl; exact L.fn hs'.pos hs.pos⟩
  rw [← L.subj_iff A T ho hs', ← L.noSubj_iff A T ho, e]
  constructor
  · rintro (⟨h1, h2⟩ | ⟨h1, h2, -⟩)
    · exact Or.inr ⟨h2, h1⟩
    · exact Or.inl h2
  · rintro (h1 | ⟨h1, h2⟩)
    · exact Or.inr ⟨List.ne_nil_of_mem h1, h1, hn⟩
    · exact Or.inl ⟨h2, h1⟩

theorem Linked.clauseSubjTok {s o : Nat} {rs ro rs' : Ref} (hs : At t nodes pos s rs) (ho : At t nodes pos o ro)
    (hn : Nominal h' rs) (H : ClauseSubj h' rs ro rs') : Nominal h' rs' ∧ ∃ s', At t nodes pos s' rs' := by
  rcases H with ⟨-, rfl⟩ | ⟨-, h1, h2⟩
  · exact ⟨hn, s, hs⟩
  · exact ⟨h2, L.subjTok A T ho h1⟩

theorem Linked.actsInRef {s o s' : Nat} {rs : Ref} (hs : At t nodes pos s rs) (H : Exactly.ActsIn ck c tokens tg t s o s') :
    ∃ rs', At t nodes pos s' rs' := by
  rcases H with h1 | ⟨rfl, -⟩
  · obtain ⟨_, rs', -, hs'⟩ := L.actsRefs T h1
    exact ⟨rs', hs'⟩
  · exact ⟨rs, hs⟩

theorem Linked.participle_iff {k : Nat} {r : Ref} (hk : At t nodes pos k r) {q : Str} :
    ParticipleOf c tokens tg t k q ↔ Spec.pastParticiple c.pp h' r = q := by
  have H := L.participleOf A hk
  constructor
  · rintro ⟨l, p, ps, h1, h2, h3, rfl⟩
    obtain ⟨l', p', ps', g1, g2, g3, g4⟩ := H
    cases LemmaOf_unique h1 g1
    rw [h2] at g2
    cases g2
    rw [g4, PartWords_unique h3 g3]
  · rintro rfl
    exact H

theorem Linked.polarity_iff {v : Nat} {rv : Ref} (hv : At t nodes pos v rv) {l : List Bool} :
    Exactly.ActorPolarity ck c tokens tg t v l ↔ subjPolarity h' rv = l := by
  have ex : (∃ s ∈ (h'.node rv).subjs, (h'.node s).isAff = true) ↔ ∃ s, Exactly.Acts ck c tokens tg t v s ∧ positive t s = true := by
    constructor
    · rintro ⟨rs, h1, h2⟩
      obtain ⟨s, hs⟩ := L.subjTok A T hv h1
      exact ⟨s, (L.subj_iff A T hv hs).mp h1, by rw [← L.aff A hs.pos hs.mem, h2]⟩
    · rintro ⟨s, h1, h2⟩
      obtain ⟨_, rs, -, hs⟩ := L.actsRefs T h1
      exact ⟨rs, (L.subj_iff A T hv hs).mpr h1, by rw [L.aff A hs.pos hs.mem, h2]⟩
  unfold Exactly.ActorPolarity subjPolarity
  rw [← L.noSubj_iff A T hv]
  constructor
  · rintro (⟨rfl, h1⟩ | ⟨b, rfl, ⟨s, h1⟩, h2⟩)
    · rw [if_pos h1]
    · obtain ⟨_, rs, -, hs⟩ := L.actsRefs T h1
      rw [if_neg (List.ne_nil_of_mem ((L.subj_iff A T hv hs).mpr h1))]
      rw [← ex] at h2
      cases b <;> simp_all
  · rintro rfl
    split
    · rename_i e
      exact Or.inl ⟨rfl, e⟩
    · rename_i e
      obtain ⟨rs, hr⟩ := List.exists_mem_of_ne_nil _ e
      obtain ⟨s, hs⟩ := L.subjTok A T hv hr
      exact Or.inr ⟨_, rfl, ⟨s, (L.subj_iff A T hv hs).mp hr⟩, by rw [decide_eq_true_iff, ex]⟩

theorem Linked.subject_iff {v : Nat} {rv : Ref} (hv : At t nodes pos v rv) {l : List Bool} :
    Exactly.SubjectPolarity t v l ↔ ((nt.childrenVia rv .SUBJ).head?.map fun s => (h'.node s).isAff).toList = l := by
  unfold Exactly.SubjectPolarity
  cases e : (nt.childrenVia rv .SUBJ).head? with
  | none =>
    have hn : Lacks t v .SUBJ := by
      refine L.lacks hv.pos (by decide) ?_
      rintro ⟨x, hx⟩
      rw [← L.viaMem, List.head?_eq_none_iff.mp e] at hx
      cases hx
    constructor
    · rintro (⟨rfl, -⟩ | ⟨s, h1, -⟩)
      · rfl
      · exact absurd (firstArc h1) (hn s)
    · rintro rfl
      exact Or.inl ⟨rfl, hn⟩
  | some rs =>
    obtain ⟨s, hs, hx⟩ := L.firstChild T (show FirstChild nt rv .SUBJ rs from e) hv.pos (by decide)
    have hf := (L.first_iff T hv.pos hs.pos (by decide)).mp (show FirstChild nt rv .SUBJ rs from e)
    constructor
    · rintro (⟨-, h1⟩ | ⟨s', h1, rfl⟩)
      · exact absurd hx (h1 s)
      · unfold Exactly.First at h1 hf
        rw [hf] at h1
        cases h1
        simp [L.aff A hs.pos hs.mem]
    · rintro rfl
      exact Or.inr ⟨s, hf, by simp [L.aff A hs.pos hs.mem]⟩

theorem Linked.past_iff {k : Nat} {r : Ref} (hk : At t nodes pos k r) (ht : (h.node r).tag = .ADJ) :
    (h.node r).suffix = some .PAST ↔ ∃ u, PastForm c tokens t k u := by
  obtain ⟨r', s, tag, l, x, k1, k2, k3, k4, k5, k6, k7, k8, k9, k10, k11⟩ := L.word hk.word
  cases L.fn k1 hk.pos
  obtain ⟨l', x', m1, m2, m3⟩ := k11 ht
  rw [m2]
  constructor
  · rintro rfl
    exact ⟨_, hk.word, s, l', _, k3, m1, k7, rfl⟩
  · rintro ⟨u, -, s', l₂, ps, ⟨tok, q1, q2⟩, q3, -, -⟩
    obtain ⟨tok', p1, p2⟩ := k3
    rw [p1] at q1; cases q1
    rw [p2] at q2; cases q2
    rw [m1] at q3
    exact (Prod.mk.inj (Except.ok.inj q3)).2

/-- What is said of the nodes is exactly what the tokens state. -/
theorem Linked.said_iff {args : List Argument} : Said c.pp h' nodes args ↔ Exactly.Stated ck c tokens tg t args := by
  have aff : ∀ {k : Nat} {r : Ref}, At t nodes pos k r → (h'.node r).isAff = positive t k := fun hk => L.aff A hk.pos hk.mem
  constructor
  · intro H
    cases H with
    | clauseIntr h1 h2 h3 h4 h5 h6 h7 =>
      obtain ⟨s, v, o, hs, hv, ho⟩ := L.clauseToks A T h1
      have hn := h1.2.2.2.1
      obtain ⟨n', s', hs'⟩ := L.clauseSubjTok A T hs ho hn h2
      rw [aff hs, aff hv, aff hs', aff ho]
      exact .clauseIntr ((L.clause_iff A T hs hv ho).mp ⟨h1, rfl, rfl⟩) ((L.clauseSubj_iff A T hs ho hs' n').mp h2)
        ((L.predicate_iff A T ho).mp ⟨h1.2.2.2.2.2, h3, rfl⟩) ((L.noObj_iff A T ho).mp h4) h5
        ((L.named_iff A T hs).mpr ⟨hn, h6⟩) ((L.named_iff A T hs').mpr ⟨n', h7⟩)
    | clauseTrans h1 h2 h3 h4 h5 h6 h7 h8 =>
      obtain ⟨s, v, o, hs, hv, ho⟩ := L.clauseToks A T h1
      have hn := h1.2.2.2.1
      obtain ⟨n', s', hs'⟩ := L.clauseSubjTok A T hs ho hn h2
      obtain ⟨o', ho'⟩ := L.objTok A T ho h4
      rw [aff hs, aff hv, aff hs', aff ho, aff ho']
      exact .clauseTrans ((L.clause_iff A T hs hv ho).mp ⟨h1, rfl, rfl⟩) ((L.clauseSubj_iff A T hs ho hs' n').mp h2)
        ((L.predicate_iff A T ho).mp ⟨h1.2.2.2.2.2, h3, rfl⟩) ((L.obj_iff A T ho ho').mp h4)
        ((L.named_iff A T hs).mpr ⟨hn, h6⟩) ((L.named_iff A T hs').mpr ⟨n', h7⟩) ((L.named_iff A T ho').mpr ⟨h5, h8⟩)
    | clauseProp h1 h2 h3 h4 h5 h6 =>
      obtain ⟨s, v, o, hs, hv, ho⟩ := L.clauseToks A T h1
      have hn := h1.2.2.2.1
      obtain ⟨n', s', hs'⟩ := L.clauseSubjTok A T hs ho hn h2
      rw [A.props] at h3
      obtain ⟨p, hp, -⟩ := L.hangs T ho (by decide) h3
      rw [aff hs, aff hv, aff hs', aff ho, aff hp]
      exact .clauseProp ((L.clause_iff A T hs hv ho).mp ⟨h1, rfl, rfl⟩) ((L.clauseSubj_iff A T hs ho hs' n').mp h2)
        ((L.hangs_iff T (by decide) ho hp).mp h3)
        ((L.named_iff A T hs).mpr ⟨hn, h4⟩) ((L.named_iff A T hs').mpr ⟨n', h5⟩) ((L.prop_iff A T hp).mp ⟨rfl, h6⟩)
    | intr h1 h2 h3 h4 h5 h6 h7 h8 =>
      obtain ⟨v, hv⟩ := L.at_mem T h1
      obtain ⟨s, hs⟩ := L.subjTok A T hv h6
      rw [aff hs, aff hv]
      exact .intr ((L.main_iff A T hv).mp ⟨h2, h3, rfl⟩) ((L.subj_iff A T hv hs).mp h6) ((L.noObj_iff A T hv).mp h4) h5
        ((L.named_iff A T hs).mpr ⟨h7, h8⟩)
    | trans h1 h2 h3 h4 h5 h6 h7 h8 h9 =>
      obtain ⟨v, hv⟩ := L.at_mem T h1
      obtain ⟨s, hs⟩ := L.subjTok A T hv h4
      obtain ⟨o, ho⟩ := L.objTok A T hv h6
      rw [aff hs, aff hv, aff ho]
      exact .trans ((L.main_iff A T hv).mp ⟨h2, h3, rfl⟩) ((L.subj_iff A T hv hs).mp h4) ((L.obj_iff A T hv ho).mp h6)
        ((L.named_iff A T hs).mpr ⟨h5, h8⟩) ((L.named_iff A T ho).mpr ⟨h7, h9⟩)
    | recip h1 h2 h3 h4 h5 h6 h7 h8 h9 =>
      obtain ⟨v, hv⟩ := L.at_mem T h1
      obtain ⟨s, hs⟩ := L.subjTok A T hv h4
      rw [A.iobjs] at h6
      obtain ⟨o, ho, -⟩ := L.hangs T hv (by decide) h6
      rw [aff hs, aff hv, aff ho]
      exact .recip ((L.main_iff A T hv).mp ⟨h2, h3, rfl⟩) ((L.subj_iff A T hv hs).mp h4) ((L.hangs_iff T (by decide) hv ho).mp h6)
        ((L.named_iff A T hs).mpr ⟨h5, h8⟩) ((L.named_iff A T ho).mpr ⟨h7, h9⟩)
    | passive h1 h2 h3 h4 h5 h6 h7 =>
      obtain ⟨v, hv⟩ := L.at_mem T h1
      obtain ⟨o, ho⟩ := L.objTok A T hv h5
      rw [aff hv, aff ho]
      exact .passive ((L.predicate_iff A T hv).mp ⟨h2, h3, rfl⟩) h4 ((L.obj_iff A T hv ho).mp h5) ((L.participle_iff A T hv).mpr rfl)
        ((L.polarity_iff A T hv).mpr rfl) ((L.named_iff A T ho).mpr ⟨h6, h7⟩)
    | indirect h1 h2 h3 h4 h5 h6 =>
      rw [A.svis] at h3
      obtain ⟨node, obj, g1, g2, g3, rfl, g5, g6⟩ := h3
      obtain ⟨q, hq⟩ := L.at_mem T g1
      obtain ⟨v, hv, v2⟩ := L.up T g2 hq.pos (by decide)
      obtain ⟨o, ho, o2⟩ := L.firstChild T g3 hv.pos (by decide)
      obtain ⟨n, hn, n2⟩ := L.member T ho g5
      obtain ⟨p, hp, p2⟩ := L.member T hq g6
      rw [aff hv, aff hn, aff hp]
      exact .indirect ((L.first_iff T hv.pos ho.pos (by decide)).mp g3) n2 ⟨q, v2, p2⟩ ((L.participle_iff A T hv).mpr rfl)
        ((L.subject_iff A T hv).mpr rfl) ((L.named_iff A T hn).mpr ⟨h2, h5⟩) ((L.given_iff A T hp).mp ⟨h4, h6⟩)
    | copula h1 h2 h3 h4 h5 h6 =>
      rw [A.copulas] at h3
      obtain ⟨n, v, p, hn, hv, hp, -⟩ := L.linking T h3
      rw [aff hn, aff hv, aff hp]
      exact .copula ((L.linking_iff T hn hv hp).mp h3) ((L.wrote_iff A T hv).mpr ⟨rfl, rfl⟩) ((L.named_iff A T hn).mpr ⟨h2, h5⟩)
        ((L.given_iff A T hp).mp ⟨h4, h6⟩)
    | copulaActive h1 h2 h3 h4 h5 h6 h7 h8 h9 =>
      rw [A.copulas] at h3
      obtain ⟨n, v, p, hn, hv, hp, -⟩ := L.linking T h3
      rw [A.agents] at h6
      obtain ⟨x, hx, -⟩ := L.agents T hp h6
      rw [aff hn, aff hx, aff hp]
      exact .copulaActive ((L.linking_iff T hn hv hp).mp h3) ((L.active_iff A T hp).mp h5) ((L.agent_iff T hp hx).mp h6)
        ((L.named_iff A T hx).mpr ⟨h7, h8⟩) ((L.named_iff A T hn).mpr ⟨h2, h9⟩)
    | participle h1 h2 h3 h4 h5 h6 =>
      rw [A.pps] at h3
      obtain ⟨rx, g1, g2, g3, g4, g5, g6, g7, g8⟩ := h3
      obtain ⟨q, hq⟩ := L.at_mem T g1
      obtain ⟨n, hn, n2⟩ := L.up T g2 hq.pos (by decide)
      obtain ⟨y, hy, -⟩ := L.firstChild T g6 hq.pos (by decide)
      obtain ⟨p, hp, p2⟩ := L.member T hy g8
      obtain ⟨u, hu⟩ := (L.past_iff A T hq g4).mp g7
      rw [aff hn, aff hq, aff hp]
      exact .participle n2 ((L.lacks_iff T hq (by decide)).mp g3)
        ((L.wrote_iff A T hq).mpr ⟨by rw [(ArgsFound_keeps A _).1, g4], rfl⟩) hu
        ((L.first_iff T hq.pos hy.pos (by decide)).mp g6) p2 ((L.named_iff A T hn).mpr ⟨h2, h5⟩) ((L.given_iff A T hp).mp ⟨h4, h6⟩)
    | adjective h1 h2 h3 h4 h5 =>
      obtain ⟨n, hn⟩ := L.at_mem T h1
      rw [A.adjs] at h3
      obtain ⟨p, hp, -⟩ := L.describes T hn h3
      rw [aff hn, aff hp]
      have ht := h2
      rw [Nominal, (ArgsFound_keeps A _).1] at ht
      exact .adjective ((L.describes_iff T hn hp ht).mp h3) ((L.named_iff A T hn).mpr ⟨h2, h4⟩) ((L.adj_iff A T hp).mp h5)
    | adjectiveActive h1 h2 h3 h4 h5 h6 h7 h8 =>
      obtain ⟨n, hn⟩ := L.at_mem T h1
      rw [A.adjs] at h3
      obtain ⟨p, hp, -⟩ := L.describes T hn h3
      rw [A.agents] at h5
      obtain ⟨x, hx, -⟩ := L.agents T hp h5
      rw [aff hn, aff hx, aff hp]
      have ht := h2
      rw [Nominal, (ArgsFound_keeps A _).1] at ht
      exact .adjectiveActive ((L.describes_iff T hn hp ht).mp h3) ((L.active_iff A T hp).mp h4) ((L.agent_iff T hp hx).mp h5)
        ((L.named_iff A T hx).mpr ⟨h6, h7⟩) ((L.named_iff A T hn).mpr ⟨h2, h8⟩)
  · intro H
    cases H with
    | clauseIntr h1 h2 h3 h4 h5 h6 h7 =>
      obtain ⟨rs, rv, ro, hs, hv, ho⟩ := L.clauseRefs A T h1
      obtain ⟨rs', hs'⟩ := L.actsInRef A T hs h2
      obtain ⟨g1, rfl, rfl⟩ := (L.clause_iff A T hs hv ho).mpr h1
      obtain ⟨m1, m2⟩ := (L.named_iff A T hs).mp h6
      obtain ⟨m3, m4⟩ := (L.named_iff A T hs').mp h7
      obtain ⟨-, g3, -⟩ := (L.predicate_iff A T ho).mpr h3
      rw [← aff hs, ← aff hv, ← aff hs', ← aff ho]
      exact .clauseIntr g1 ((L.clauseSubj_iff A T hs ho hs' m3).mpr h2) g3 ((L.noObj_iff A T ho).mpr h4) h5 m2 m4
    | clauseTrans h1 h2 h3 h4 h5 h6 h7 =>
      obtain ⟨rs, rv, ro, hs, hv, ho⟩ := L.clauseRefs A T h1
      obtain ⟨rs', hs'⟩ := L.actsInRef A T hs h2
      obtain ⟨g1, rfl, rfl⟩ := (L.clause_iff A T hs hv ho).mpr h1
      obtain ⟨_, ro', -, ho'⟩ := L.undergoesRefs T h4
      obtain ⟨m1, m2⟩ := (L.named_iff A T hs).mp h5
      obtain ⟨m3, m4⟩ := (L.named_iff A T hs').mp h6
      obtain ⟨m5, m6⟩ := (L.named_iff A T ho').mp h7
      obtain ⟨-, g3, -⟩ := (L.predicate_iff A T ho).mpr h3
      rw [← aff hs, ← aff hv, ← aff hs', ← aff ho, ← aff ho']
      exact .clauseTrans g1 ((L.clauseSubj_iff A T hs ho hs' m3).mpr h2) g3 ((L.obj_iff A T ho ho').mpr h4) m5 m2 m4 m6
    | clauseProp h1 h2 h3 h4 h5 h6 =>
      obtain ⟨rs, rv, ro, hs, hv, ho⟩ := L.clauseRefs A T h1
      obtain ⟨rs', hs'⟩ := L.actsInRef A T hs h2
      obtain ⟨g1, rfl, rfl⟩ := (L.clause_iff A T hs hv ho).mpr h1
      obtain ⟨_, rp, -, hp⟩ := L.hangsRefs T (by decide) h3
      obtain ⟨m1, m2⟩ := (L.named_iff A T hs).mp h4
      obtain ⟨m3, m4⟩ := (L.named_iff A T hs').mp h5
      rw [← aff hs, ← aff hv, ← aff hs', ← aff ho, ← aff hp]
      exact .clauseProp g1 ((L.clauseSubj_iff A T hs ho hs' m3).mpr h2)
        ((A.props _ _).mpr ((L.hangs_iff T (by decide) ho hp).mpr h3)) m2 m4 ((L.prop_iff A T hp).mpr h6).2
    | intr h1 h2 h3 h4 h5 =>
      obtain ⟨rv, rs, hv, hs⟩ := L.actsRefs T h2
      obtain ⟨g1, g2, rfl⟩ := (L.main_iff A T hv).mpr h1
      obtain ⟨m1, m2⟩ := (L.named_iff A T hs).mp h5
      rw [← aff hs, ← aff hv]
      exact .intr hv.mem g1 g2 ((L.noObj_iff A T hv).mpr h3) h4 ((L.subj_iff A T hv hs).mpr h2) m1 m2
    | trans h1 h2 h3 h4 h5 =>
      obtain ⟨rv, rs, hv, hs⟩ := L.actsRefs T h2
      obtain ⟨g1, g2, rfl⟩ := (L.main_iff A T hv).mpr h1
      obtain ⟨_, ro, -, ho⟩ := L.undergoesRefs T h3
      obtain ⟨m1, m2⟩ := (L.named_iff A T hs).mp h4
      obtain ⟨m3, m4⟩ := (L.named_iff A T ho).mp h5
      rw [← aff hs, ← aff hv, ← aff ho]
      exact .trans hv.mem g1 g2 ((L.subj_iff A T hv hs).mpr h2) m1 ((L.obj_iff A T hv ho).mpr h3) m3 m2 m4
    | recip h1 h2 h3 h4 h5 =>
      obtain ⟨rv, rs, hv, hs⟩ := L.actsRefs T h2
      obtain ⟨g1, g2, rfl⟩ := (L.main_iff A T hv).mpr h1
      obtain ⟨_, ro, -, ho⟩ := L.hangsRefs T (by decide) h3
      obtain ⟨m1, m2⟩ := (L.named_iff A T hs).mp h4
      obtain ⟨m3, m4⟩ := (L.named_iff A T ho).mp h5
      rw [← aff hs, ← aff hv, ← aff ho]
      exact .recip hv.mem g1 g2 ((L.subj_iff A T hv hs).mpr h2) m1 ((A.iobjs _ _).mpr ((L.hangs_iff T (by decide) hv ho).mpr h3))
        m3 m2 m4
    | passive h1 h2 h3 h4 h5 h6 =>
      obtain ⟨rv, ro, hv, ho⟩ := L.undergoesRefs T h3
      obtain ⟨g1, g2, rfl⟩ := (L.predicate_iff A T hv).mpr h1
      obtain ⟨m1, m2⟩ := (L.named_iff A T ho).mp h6
      rw [← aff hv, ← aff ho, ← (L.polarity_iff A T hv).mp h5, ← (L.participle_iff A T hv).mp h4]
      exact .passive hv.mem g1 g2 h2 ((L.obj_iff A T hv ho).mpr h3) m1 m2
    | indirect h1 h2 h3 h4 h5 h6 h7 =>
      obtain ⟨rv, ro, hv, ho⟩ := L.firstRef T (by decide) h1
      obtain ⟨rn, hn⟩ := L.memberRef T ho h2
      obtain ⟨q, q1, q2⟩ := h3
      obtain ⟨_, rq, -, hq⟩ := L.ends T q1 (by decide)
      obtain ⟨rp, hp⟩ := L.memberRef T hq q2
      obtain ⟨m1, m2⟩ := (L.named_iff A T hn).mp h6
      obtain ⟨m3, m4⟩ := (L.given_iff A T hp).mpr h7
      rw [← aff hv, ← aff hn, ← aff hp, ← (L.subject_iff A T hv).mp h5, ← (L.participle_iff A T hv).mp h4]
      exact .indirect hn.mem m1 ((A.svis _ _ _ _).mpr ⟨rq, ro, hq.mem, (L.parent_iff hv hq).mpr q1,
        (L.first_iff T hv.pos ho.pos (by decide)).mpr h1, rfl, (L.member_iff T ho hn).mpr h2, (L.member_iff T hq hp).mpr q2⟩) m3 m2 m4
    | copula h1 h2 h3 h4 =>
      obtain ⟨rn, rv, rp, hn, hv, hp⟩ := L.linkingRefs T h1
      obtain ⟨-, rfl⟩ := (L.wrote_iff A T hv).mp h2
      obtain ⟨m1, m2⟩ := (L.named_iff A T hn).mp h3
      obtain ⟨m3, m4⟩ := (L.given_iff A T hp).mpr h4
      rw [← aff hv, ← aff hn, ← aff hp]
      exact .copula hn.mem m1 ((A.copulas _ _ _).mpr ((L.linking_iff T hn hv hp).mpr h1)) m3 m2 m4
    | copulaActive h1 h2 h3 h4 h5 =>
      obtain ⟨rn, rv, rp, hn, hv, hp⟩ := L.linkingRefs T h1
      obtain ⟨_, rx, -, hx⟩ := L.agentRefs T h3
      obtain ⟨m1, m2⟩ := (L.named_iff A T hx).mp h4
      obtain ⟨m3, m4⟩ := (L.named_iff A T hn).mp h5
      rw [← aff hx, ← aff hn, ← aff hp]
      exact .copulaActive hn.mem m3 ((A.copulas _ _ _).mpr ((L.linking_iff T hn hv hp).mpr h1))
        (by rw [(ArgsFound_keeps A _).1]; exact (L.taken_iff T hp).mp h2.1) ((L.active_iff A T hp).mpr h2)
        ((A.agents _ _).mpr ((L.agent_iff T hp hx).mpr h3)) m1 m2 m4
    | participle h1 h2 h3 h4 h5 h6 h7 h8 =>
      obtain ⟨rn, rq, hn, hq⟩ := L.ends T h1 (by decide)
      obtain ⟨_, ry, -, hy⟩ := L.firstRef T (by decide) h5
      obtain ⟨rp, hp⟩ := L.memberRef T hy h6
      obtain ⟨m1, m2⟩ := (L.named_iff A T hn).mp h7
      obtain ⟨m3, m4⟩ := (L.given_iff A T hp).mpr h8
      obtain ⟨g1, rfl⟩ := (L.wrote_iff A T hq).mp h3
      rw [(ArgsFound_keeps A _).1] at g1
      have m1' := m1
      rw [Nominal, (ArgsFound_keeps A _).1] at m1'
      rw [← aff hq, ← aff hn, ← aff hp]
      exact .participle hn.mem m1 ((A.pps _ _ _).mpr ⟨ry, hq.mem, (L.parent_iff hn hq).mpr h1, (L.lacks_iff T hq (by decide)).mpr h2,
        g1, m1', (L.first_iff T hq.pos hy.pos (by decide)).mpr h5, (L.past_iff A T hq g1).mpr ⟨_, h4⟩, (L.member_iff T hy hp).mpr h6⟩)
        m3 m2 m4
    | adjective h1 h2 h3 =>
      obtain ⟨rn, rp, hn, hp⟩ := L.describesRefs T h1
      obtain ⟨m1, m2⟩ := (L.named_iff A T hn).mp h2
      have m1' := m1
      rw [Nominal, (ArgsFound_keeps A _).1] at m1'
      rw [← aff hn, ← aff hp]
      exact .adjective hn.mem m1 ((A.adjs _ _).mpr ((L.describes_iff T hn hp m1').mpr h1)) m2 ((L.adj_iff A T hp).mpr h3)
    | adjectiveActive h1 h2 h3 h4 h5 =>
      obtain ⟨rn, rp, hn, hp⟩ := L.describesRefs T h1
      obtain ⟨_, rx, -, hx⟩ := L.agentRefs T h3
      obtain ⟨m1, m2⟩ := (L.named_iff A T hx).mp h4
      obtain ⟨m3, m4⟩ := (L.named_iff A T hn).mp h5
      have m3' := m3
      rw [Nominal, (ArgsFound_keeps A _).1] at m3'
      rw [← aff hn, ← aff hp, ← aff hx]
      exact .adjectiveActive hn.mem m3 ((A.adjs _ _).mpr ((L.describes_iff T hn hp m3').mpr h1)) ((L.active_iff A T hp).mpr h2)
        ((A.agents _ _).mpr ((L.agent_iff T hp hx).mpr h3)) m1 m2 m4

end
end Model
