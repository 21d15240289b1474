import Verif.Spec.Semantics
import Verif.Spec.Alike

/-! Two node trees of the same form say the same. -/

namespace Model
open Py Spec

/-- The relation takes the first nodes and their tree to the second ones. -/
structure Iso (h : Heap) (nt : Tree Dep Ref) (nodes : List Ref) (k : Heap) (mt : Tree Dep Ref) (modes : List Ref)
    (R : Ref → Ref → Prop) : Prop where
  fn : ∀ {r a b}, R r a → R r b → a = b
  total : ∀ {r}, r ∈ nodes → ∃ r', R r r'
  mem : ∀ {r r'}, R r r' → r ∈ nodes → r' ∈ modes
  par : ∀ {r r' d p}, r ∈ nodes → R r r' → nt.parent r = some (d, p) → ∃ p', R p p' ∧ p ∈ nodes ∧ mt.parent r' = some (d, p')
  child : ∀ {r r' d x}, R r r' → d ∉ light → (d, x) ∈ nt.children r → ∃ x', R x x' ∧ (d, x') ∈ mt.children r'
  inner : ∀ {r d x}, (d, x) ∈ nt.children r → d ∉ functional → r ∈ nodes ∧ x ∈ nodes
  first : ∀ {r r' d x}, R r r' → d ∉ light → FirstChild nt r d x → ∃ x', R x x' ∧ FirstChild mt r' d x'
  firstMem : ∀ {r d x}, FirstChild nt r d x → (d, x) ∈ nt.children r
  same : ∀ {r r'}, r ∈ nodes → R r r' → (k.node r').tag = (h.node r).tag ∧ (k.node r').canon = (h.node r).canon ∧
    (k.node r').lem = (h.node r).lem ∧ (k.node r').particles = (h.node r).particles ∧
    (k.node r').isInfTo = (h.node r).isInfTo ∧ (k.node r').activeVerb = (h.node r).activeVerb ∧
    ((h.node r).tag = .ADJ → (k.node r').suffix = (h.node r).suffix)
  mark : ∀ {r r' m m'}, R r r' → FirstChild nt r .MARK m → R m m' → ((k.node m').canon = c!"by" ↔ (h.node m).canon = c!"by")
  bare : ∀ {r r' v}, R r r' → (.AND, r) ∈ nt.children v ∨ (.OR, r) ∈ nt.children v → nt.children r = [] → mt.children r' = []

variable {h k : Heap} {nt mt : Tree Dep Ref} {nodes modes : List Ref} {R : Ref → Ref → Prop}

section
variable (I : Iso h nt nodes k mt modes R) (J : Iso k mt modes h nt nodes fun a b => R b a)
include I

theorem Iso.hasChild {r r' : Ref} {d : Dep} (hr : R r r') (hc : HasChild nt r d) (hd : d ∉ light := by decide) : HasChild mt r' d := by
  obtain ⟨x, hx⟩ := hc
  obtain ⟨x', -, hx'⟩ := I.child hr hd hx
  exact ⟨x', hx'⟩

theorem Iso.hasMarker {r r' : Ref} (hr : R r r') (hc : HasMarker nt r) : HasMarker mt r' :=
  hc.imp (fun h => I.hasChild hr h) (Or.imp (fun h => I.hasChild hr h) fun h => I.hasChild hr h)

theorem Iso.firstIn {r x : Ref} {d : Dep} (hx : FirstChild nt r d x) (hd : d ∉ functional) : x ∈ nodes :=
  (I.inner (I.firstMem hx) hd).2

theorem Iso.conjunct {r r' x : Ref} (hr : R r r') (hc : Conjunct nt nodes r x) : ∃ x', R x x' ∧ x ∈ nodes ∧ Conjunct mt modes r' x' := by
  obtain ⟨hm, hc | hc⟩ := hc
  · obtain ⟨x', h1, h2⟩ := I.child hr (by decide) hc
    exact ⟨x', h1, (I.inner hc (by decide)).2, I.mem hr hm, Or.inl h2⟩
  · obtain ⟨x', h1, h2⟩ := I.child hr (by decide) hc
    exact ⟨x', h1, (I.inner hc (by decide)).2, I.mem hr hm, Or.inr h2⟩

theorem Iso.group {r r' x : Ref} (hr : R r r') (hm : r ∈ nodes) (hc : Group nt nodes r x) :
    ∃ x', R x x' ∧ x ∈ nodes ∧ Group mt modes r' x' := by
  rcases hc with rfl | hc
  · exact ⟨r', hr, hm, Or.inl rfl⟩
  · obtain ⟨x', h1, h2, h3⟩ := I.conjunct hr hc
    exact ⟨x', h1, h2, Or.inr h3⟩

include J

theorem Iso.relReferent {v v' n n' p : Ref} (hv : R v v') (hvm : v ∈ nodes) (hn : R n n') (hnm : n ∈ nodes)
    (H : RelReferent h nt v n p) : ∃ p', R p p' ∧ p ∈ nodes ∧ RelReferent k mt v' n' p' := by
  obtain ⟨h1, h2, h3, h4, h5⟩ := H
  obtain ⟨p', q1, q2, q3⟩ := I.par hvm hv h3
  refine ⟨p', q1, q2, by rw [(I.same hnm hn).1, h1], by rw [(I.same hnm hn).2.1]; exact h2, q3, by rw [(I.same q2 q1).1]; exact h4,
    fun hm => h5 (J.hasMarker hv hm)⟩

theorem Iso.reflexive {n n' : Ref} (hn : R n n') (hnm : n ∈ nodes) (H : Spec.Reflexive h n) : Spec.Reflexive k n' := by
  unfold Spec.Reflexive at *
  rw [(I.same hnm hn).2.1]
  exact H

theorem Iso.reflexiveSubj {v v' n n' p : Ref} (hv : R v v') (hvm : v ∈ nodes) (hn : R n n') (hnm : n ∈ nodes)
    (H : ReflexiveSubj h nt v n p) : ∃ p', R p p' ∧ p ∈ nodes ∧ ReflexiveSubj k mt v' n' p' := by
  obtain ⟨h1, q, h2, h3, h4⟩ := H
  obtain ⟨q', q1, q2, q3⟩ := I.par hvm hv h2
  obtain ⟨p', r1, r2⟩ := I.first q1 (by decide) h4
  exact ⟨p', r1, I.firstIn h4 (by decide), I.reflexive J hn hnm h1, q', q3, by rw [(I.same q2 q1).1, h3], r2⟩

theorem Iso.reflexiveObj {v v' n n' p : Ref} (hv : R v v') (hn : R n n') (hnm : n ∈ nodes)
    (H : ReflexiveObj h nt v n p) : ∃ p', R p p' ∧ p ∈ nodes ∧ ReflexiveObj k mt v' n' p' := by
  obtain ⟨h1, h4⟩ := H
  obtain ⟨p', r1, r2⟩ := I.first hv (by decide) h4
  exact ⟨p', r1, I.firstIn h4 (by decide), I.reflexive J hn hnm h1, r2⟩

omit J I in
theorem meant_iso {rel rel' refl refl' : Ref → Prop} {n n' x : Ref} (hn : R n n') (hnm : n ∈ nodes)
    (f1 : ∀ {p}, rel p → ∃ p', R p p' ∧ p ∈ nodes ∧ rel' p') (b1 : ∀ {p'}, rel' p' → ∃ p, rel p)
    (f2 : ∀ {p}, refl p → ∃ p', R p p' ∧ p ∈ nodes ∧ refl' p') (b2 : ∀ {p'}, refl' p' → ∃ p, refl p)
    (H : Meant rel refl n x) : ∃ x', R x x' ∧ x ∈ nodes ∧ Meant rel' refl' n' x' := by
  have nrel : (∀ y, ¬ rel y) → ∀ y, ¬ rel' y := fun g y hy => by
    obtain ⟨p, hp⟩ := b1 hy
    exact g p hp
  have nrefl : (∀ y, ¬ refl y) → ∀ y, ¬ refl' y := fun g y hy => by
    obtain ⟨p, hp⟩ := b2 hy
    exact g p hp
  rcases H with H | ⟨g, H⟩ | ⟨g, g', rfl⟩
  · obtain ⟨x', h1, h2, h3⟩ := f1 H
    exact ⟨x', h1, h2, Or.inl h3⟩
  · obtain ⟨x', h1, h2, h3⟩ := f2 H
    exact ⟨x', h1, h2, Or.inr (Or.inl ⟨nrel g, h3⟩)⟩
  · exact ⟨n', hn, hnm, Or.inr (Or.inr ⟨nrel g, nrefl g', rfl⟩)⟩

theorem Iso.sharesSubj {v v' w w' : Ref} (hv : R v v') (hw : R w w') (H : SharesSubj nt nodes v w) : SharesSubj mt modes v' w' := by
  rcases H with rfl | ⟨h1, h2⟩
  · exact Or.inl (I.fn hw hv)
  · obtain ⟨x', q1, -, q2⟩ := I.conjunct hv h1
    rw [I.fn q1 hw] at q2
    exact Or.inr ⟨q2, fun hc => h2 (J.hasChild hw hc)⟩

theorem Iso.sharesObj {v v' w w' : Ref} (hv : R v v') (hw : R w w') (H : SharesObj nt nodes v w) : SharesObj mt modes v' w' := by
  rcases H with rfl | ⟨h1, h2⟩
  · exact Or.inl (I.fn hw hv)
  · obtain ⟨x', q1, -, q2⟩ := I.conjunct hv h1
    rw [I.fn q1 hw] at q2
    exact Or.inr ⟨q2, I.bare hw h1.2 h2⟩

theorem Iso.subjOf {v v' s : Ref} (hv : R v v') (H : SubjOf h nt nodes v s) : ∃ s', R s s' ∧ s ∈ nodes ∧ SubjOf k mt modes v' s' := by
  rcases H with ⟨verb, n, ref, h1, h2, h3, h4, h5⟩ | ⟨verb, p, subj, h1, h2, h3, h4, h5, h6, h7, h8, h9⟩
  · obtain ⟨n', hn⟩ := I.total h1
    obtain ⟨verb', q1, q2, q3⟩ := I.par h1 hn h2
    obtain ⟨ref', m1, m2, m3⟩ := meant_iso hn h1 (I.relReferent J q1 q2 hn h1)
      (fun hp => by obtain ⟨p, -, -, hp⟩ := J.relReferent I q1 (I.mem q1 q2) hn (I.mem hn h1) hp; exact ⟨p, hp⟩)
      (I.reflexiveSubj J q1 q2 hn h1)
      (fun hp => by obtain ⟨p, -, -, hp⟩ := J.reflexiveSubj I q1 (I.mem q1 q2) hn (I.mem hn h1) hp; exact ⟨p, hp⟩) h3
    obtain ⟨s', s1, s2, s3⟩ := I.group m1 m2 h4
    exact ⟨s', s1, s2, Or.inl ⟨verb', n', ref', I.mem hn h1, q3, m3, s3, I.sharesSubj J q1 hv h5⟩⟩
  · obtain ⟨verb', hn⟩ := I.total h1
    obtain ⟨p', q1, q2, q3⟩ := I.par h1 hn h2
    obtain ⟨subj', f1, f2⟩ := I.first q1 (by decide) h7
    obtain ⟨s', s1, s2, s3⟩ := I.group f1 (I.firstIn h7 (by decide)) h8
    exact ⟨s', s1, s2, Or.inr ⟨verb', p', subj', I.mem hn h1, q3, I.hasChild hn h3, by rw [(I.same h1 hn).1, h4],
      fun hc => h5 (J.hasChild hn hc), by rw [(I.same q2 q1).1, h6], f2, s3, I.sharesSubj J hn hv h9⟩⟩

theorem Iso.objOf {v v' s : Ref} (hv : R v v') (H : ObjOf h nt nodes v s) : ∃ s', R s s' ∧ s ∈ nodes ∧ ObjOf k mt modes v' s' := by
  rcases H with ⟨verb, n, ref, h1, h2, h3, h4, h5⟩ | ⟨verb, p, subj, h1, h2, h3, h4, h5, h6, h7, h8, h9⟩
  · obtain ⟨n', hn⟩ := I.total h1
    obtain ⟨verb', q1, q2, q3⟩ := I.par h1 hn h2
    obtain ⟨ref', m1, m2, m3⟩ := meant_iso hn h1 (I.relReferent J q1 q2 hn h1)
      (fun hp => by obtain ⟨p, -, -, hp⟩ := J.relReferent I q1 (I.mem q1 q2) hn (I.mem hn h1) hp; exact ⟨p, hp⟩)
      (I.reflexiveObj J q1 hn h1)
      (fun hp => by obtain ⟨p, -, -, hp⟩ := J.reflexiveObj I q1 hn (I.mem hn h1) hp; exact ⟨p, hp⟩) h3
    obtain ⟨s', s1, s2, s3⟩ := I.group m1 m2 h4
    exact ⟨s', s1, s2, Or.inl ⟨verb', n', ref', I.mem hn h1, q3, m3, s3, I.sharesObj J q1 hv h5⟩⟩
  · obtain ⟨verb', hn⟩ := I.total h1
    obtain ⟨p', q1, q2, q3⟩ := I.par h1 hn h2
    obtain ⟨subj', f1, f2⟩ := I.first hn (by decide) h6
    obtain ⟨s', s1, s2, s3⟩ := I.group q1 q2 h8
    exact ⟨s', s1, s2, Or.inr ⟨verb', p', subj', I.mem hn h1, q3, fun hc => h3 (J.hasMarker hn hc), by rw [(I.same q2 q1).1]; exact h4,
      fun hc => h5 (J.hasChild hn hc), f2, by rw [(I.same (I.firstIn h6 (by decide)) f1).2.1]; exact h7, s3, I.sharesObj J hn hv h9⟩⟩

theorem Iso.attachedBy {v v' x : Ref} {d : Dep} (hv : R v v') (H : AttachedBy nt nodes d v x) :
    ∃ x', R x x' ∧ x ∈ nodes ∧ AttachedBy mt modes d v' x' := by
  obtain ⟨n, h1, h2, h3⟩ := H
  obtain ⟨n', hn⟩ := I.total h1
  obtain ⟨v₁, q1, q2, q3⟩ := I.par h1 hn h2
  cases I.fn q1 hv
  obtain ⟨x', s1, s2, s3⟩ := I.group hn h1 h3
  exact ⟨x', s1, s2, n', I.mem hn h1, q3, s3⟩

theorem Iso.copulaOf {s s' c p : Ref} (hs : R s s') (H : CopulaOf h nt nodes s c p) :
    ∃ c' p', R c c' ∧ R p p' ∧ c ∈ nodes ∧ p ∈ nodes ∧ CopulaOf k mt modes s' c' p' := by
  obtain ⟨n, subj, ref, h1, h2, h3, h4, h5, h6, h7⟩ := H
  obtain ⟨n', hn⟩ := I.total h1
  obtain ⟨c', q1, q2, q3⟩ := I.par h1 hn h2
  obtain ⟨subj', f1, f2⟩ := I.first q1 (by decide) h3
  have f3 := I.firstIn h3 (by decide)
  obtain ⟨ref', m1, m2, m3⟩ := meant_iso (refl' := fun _ => False) f1 f3 (I.relReferent J q1 q2 f1 f3)
    (fun hp => by obtain ⟨p, -, -, hp⟩ := J.relReferent I q1 (I.mem q1 q2) f1 (I.mem f1 f3) hp; exact ⟨p, hp⟩)
    (fun hp => hp.elim) (fun hp => hp.elim) h4
  obtain ⟨s₁, s1, s2, s3⟩ := I.group m1 m2 h5
  cases I.fn s1 hs
  obtain ⟨p', p1, p2, p3⟩ := I.group hn h1 h6
  exact ⟨c', p', q1, p1, q2, p2, n', subj', ref', I.mem hn h1, q3, f2, m3, s3, p3, fun hc => h7 (J.hasMarker p1 hc)⟩

theorem Iso.ipropOf {o o' v p : Ref} {s : Option Ref} (ho : R o o') (H : IpropOf nt nodes o s v p) :
    ∃ s' v' p', (∀ {x}, s = some x → ∃ x', s' = some x' ∧ R x x' ∧ x ∈ nodes) ∧ (s = none → s' = none) ∧
      R v v' ∧ R p p' ∧ v ∈ nodes ∧ p ∈ nodes ∧ IpropOf mt modes o' s' v' p' := by
  obtain ⟨n, obj, h1, h2, h3, h4, h5, h6⟩ := H
  obtain ⟨n', hn⟩ := I.total h1
  obtain ⟨v', q1, q2, q3⟩ := I.par h1 hn h2
  obtain ⟨obj', f1, f2⟩ := I.first q1 (by decide) h3
  obtain ⟨o₁, s1, s2, s3⟩ := I.group f1 (I.firstIn h3 (by decide)) h5
  cases I.fn s1 ho
  obtain ⟨p', p1, p2, p3⟩ := I.group hn h1 h6
  refine ⟨_, v', p', ?_, ?_, q1, p1, q2, p2, n', obj', I.mem hn h1, q3, f2, rfl, s3, p3⟩
  · rintro x rfl
    obtain ⟨x', g1, g2⟩ := I.first q1 (by decide) h4.symm
    exact ⟨x', g2, g1, I.firstIn h4.symm (by decide)⟩
  · rintro rfl
    cases e : (mt.childrenVia v' .SUBJ).head? with
    | none => rfl
    | some x =>
      obtain ⟨y, -, g⟩ := J.first q1 (by decide) e
      rw [show (nt.childrenVia v .SUBJ).head? = some y from g] at h4
      cases h4

theorem Iso.adjOf {v v' a : Ref} (hv : R v v') (H : AdjOf h nt nodes v a) : ∃ a', R a a' ∧ a ∈ nodes ∧ AdjOf k mt modes v' a' := by
  rcases H with ⟨n, h1, h2, h3, h4, h5⟩ | ⟨p, h1, h2, h3, h4, h5, h6⟩
  · obtain ⟨n', hn⟩ := I.total h1
    obtain ⟨v₁, q1, q2, q3⟩ := I.par h1 hn h2
    cases I.fn q1 hv
    obtain ⟨x', s1, s2, s3⟩ := I.group hn h1 h5
    exact ⟨x', s1, s2, Or.inl ⟨n', I.mem hn h1, q3, fun hc => h3 (J.hasChild hn hc), by rw [(I.same h1 hn).1, h4], s3⟩⟩
  · obtain ⟨p', q1, q2, q3⟩ := I.par h1 hv h2
    obtain ⟨x', s1, s2, s3⟩ := I.group q1 q2 h6
    exact ⟨x', s1, s2, Or.inr ⟨p', I.mem hv h1, q3, I.hasChild hv h3, by rw [(I.same q2 q1).1, h4],
      by rw [(I.same h1 hv).1]; exact h5, s3⟩⟩

theorem Iso.ppOf {v v' q p : Ref} (hv : R v v') (H : PpOf h nt nodes v q p) :
    ∃ q' p', R q q' ∧ R p p' ∧ q ∈ nodes ∧ p ∈ nodes ∧ PpOf k mt modes v' q' p' := by
  obtain ⟨prop, h1, h2, h3, h4, h5, h6, h7, h8⟩ := H
  obtain ⟨q', hq⟩ := I.total h1
  obtain ⟨v₁, q1, q2, q3⟩ := I.par h1 hq h2
  cases I.fn q1 hv
  obtain ⟨prop', f1, f2⟩ := I.first hq (by decide) h6
  obtain ⟨p', s1, s2, s3⟩ := I.group f1 (I.firstIn h6 (by decide)) h8
  have e := I.same h1 hq
  exact ⟨q', p', hq, s1, h1, s2, prop', I.mem hq h1, q3, fun hc => h3 (J.hasChild hq hc), by rw [e.1, h4],
    by rw [(I.same q2 q1).1]; exact h5, f2, by rw [e.2.2.2.2.2.2 h4, h7], s3⟩

theorem Iso.agentOf {d d' a : Ref} (hd : R d d') (H : AgentOf h nt nodes d a) :
    ∃ a', R a a' ∧ a ∈ nodes ∧ AgentOf k mt modes d' a' := by
  obtain ⟨n, m, h1, h2, h3, h4, ⟨q, h5⟩, h6⟩ := H
  obtain ⟨n', hn⟩ := I.total h1
  obtain ⟨d₁, q1, q2, q3⟩ := I.par h1 hn h2
  cases I.fn q1 hd
  obtain ⟨m', f1, f2⟩ := I.first hn (by decide) h3
  obtain ⟨a', s1, s2, s3⟩ := I.group hn h1 h6
  refine ⟨a', s1, s2, n', m', I.mem hn h1, q3, f2, (I.mark hn h3 f1).mpr h4, ?_, s3⟩
  rcases h5 with h5 | h5
  · obtain ⟨q', -, -, g⟩ := I.par q2 hd h5
    exact ⟨q', Or.inl g⟩
  · obtain ⟨q', -, -, g⟩ := I.par q2 hd h5
    exact ⟨q', Or.inr g⟩

end

/-! ### What is said -/

section
variable {h' k' : Heap} (I : Iso h nt nodes k mt modes R) (J : Iso k mt modes h nt nodes fun a b => R b a)
  (A : ArgsFound h nt nodes h') (B : ArgsFound k mt modes k')
include I A B

theorem Iso.words {r r' : Ref} (hm : r ∈ nodes) (hr : R r r') : (k'.node r').tag = (h'.node r).tag ∧
    (k'.node r').canon = (h'.node r).canon ∧ (k'.node r').lem = (h'.node r).lem ∧
    (k'.node r').particles = (h'.node r).particles ∧ (k'.node r').isInfTo = (h'.node r).isInfTo ∧
    (k'.node r').activeVerb = (h'.node r).activeVerb := by
  obtain ⟨a, b, c, d, e, f, g, i, j, k, l, m, n, o, H⟩ := A.same r
  obtain ⟨a', b', c', d', e', f', g', i', j', k', l', m', n', o', H'⟩ := B.same r'
  obtain ⟨h1, h2, h3, h4, h5, h6, -⟩ := I.same hm hr
  rw [H, H']
  exact ⟨h1, h2, h3, h4, h5, h6⟩

include J

theorem Iso.aff {r r' : Ref} (hm : r ∈ nodes) (hr : R r r') : (k'.node r').isAff = (h'.node r).isAff := by
  have : (k'.node r').isAff = false ↔ (h'.node r).isAff = false := by
    rw [A.aff, B.aff]
    exact ⟨fun ⟨_, h2⟩ => ⟨hm, J.hasChild hr h2⟩, fun ⟨h1, h2⟩ => ⟨I.mem hr h1, I.hasChild hr h2⟩⟩
  cases e : (h'.node r).isAff <;> cases e' : (k'.node r').isAff <;> simp_all

omit I J A B in
theorem nil_of_iso {xs ys : List Ref} (f : ∀ {y}, y ∈ ys → ∃ x, x ∈ xs) (hx : xs = []) : ys = [] := by
  rw [List.eq_nil_iff_forall_not_mem]
  intro y hy
  obtain ⟨x, h⟩ := f hy
  rw [hx] at h
  cases h

theorem Iso.subjs {v v' s : Ref} (hv : R v v') (hs : s ∈ (h'.node v).subjs) : ∃ s', R s s' ∧ s ∈ nodes ∧ s' ∈ (k'.node v').subjs := by
  simp only [A.subjs, B.subjs] at *
  exact I.subjOf J hv hs

theorem Iso.objs {v v' s : Ref} (hv : R v v') (hs : s ∈ (h'.node v).objs) : ∃ s', R s s' ∧ s ∈ nodes ∧ s' ∈ (k'.node v').objs := by
  simp only [A.objs, B.objs] at *
  exact I.objOf J hv hs

theorem Iso.props {v v' s : Ref} (hv : R v v') (hs : s ∈ (h'.node v).props) : ∃ s', R s s' ∧ s ∈ nodes ∧ s' ∈ (k'.node v').props := by
  simp only [A.props, B.props] at *
  exact I.attachedBy J hv hs

theorem Iso.iprops {v v' s : Ref} (hv : R v v') (hs : s ∈ (h'.node v).iprops) : ∃ s', R s s' ∧ s ∈ nodes ∧ s' ∈ (k'.node v').iprops := by
  simp only [A.iprops, B.iprops] at *
  exact I.attachedBy J hv hs

theorem Iso.exist {v v' s : Ref} (hv : R v v') (hs : s ∈ (h'.node v).exist) : ∃ s', R s s' ∧ s ∈ nodes ∧ s' ∈ (k'.node v').exist := by
  simp only [A.exist, B.exist] at *
  exact I.attachedBy J hv hs

theorem Iso.iobjs {v v' s : Ref} (hv : R v v') (hs : s ∈ (h'.node v).iobjs) : ∃ s', R s s' ∧ s ∈ nodes ∧ s' ∈ (k'.node v').iobjs := by
  simp only [A.iobjs, B.iobjs] at *
  exact I.attachedBy J hv hs

theorem Iso.adjs {v v' s : Ref} (hv : R v v') (hs : s ∈ (h'.node v).adjs) : ∃ s', R s s' ∧ s ∈ nodes ∧ s' ∈ (k'.node v').adjs := by
  simp only [A.adjs, B.adjs] at *
  exact I.adjOf J hv hs

theorem Iso.agents {v v' s : Ref} (hv : R v v') (hs : s ∈ (h'.node v).agents) : ∃ s', R s s' ∧ s ∈ nodes ∧ s' ∈ (k'.node v').agents := by
  simp only [A.agents, B.agents] at *
  exact I.agentOf J hv hs

theorem Iso.copulas {v v' c p : Ref} (hv : R v v') (hs : (c, p) ∈ (h'.node v).copulasProps) :
    ∃ c' p', R c c' ∧ R p p' ∧ c ∈ nodes ∧ p ∈ nodes ∧ (c', p') ∈ (k'.node v').copulasProps := by
  simp only [A.copulas, B.copulas] at *
  exact I.copulaOf J hv hs

theorem Iso.pps {v v' c p : Ref} (hv : R v v') (hs : (c, p) ∈ (h'.node v).ppsProps) :
    ∃ c' p', R c c' ∧ R p p' ∧ c ∈ nodes ∧ p ∈ nodes ∧ (c', p') ∈ (k'.node v').ppsProps := by
  simp only [A.pps, B.pps] at *
  exact I.ppOf J hv hs

theorem Iso.plain {v v' : Ref} (hv : R v v') (hp : Spec.Plain (h'.node v)) : Spec.Plain (k'.node v') := by
  refine ⟨nil_of_iso (fun hy => ?_) hp.1, nil_of_iso (fun hy => ?_) hp.2.1, nil_of_iso (fun hy => ?_) hp.2.2⟩
  · obtain ⟨x, -, -, hx⟩ := J.props I B A hv hy; exact ⟨x, hx⟩
  · obtain ⟨x, -, -, hx⟩ := J.iprops I B A hv hy; exact ⟨x, hx⟩
  · obtain ⟨x, -, -, hx⟩ := J.exist I B A hv hy; exact ⟨x, hx⟩

theorem Iso.heads {v v' : Ref} (hm : v ∈ nodes) (hv : R v v') (hp : Heads h' v) : Heads k' v' := by
  obtain ⟨h1, -, -, -, h5, -⟩ := I.words A B hm hv
  exact ⟨by rw [h1]; exact hp.1, by rw [h5]; exact hp.2.1, I.plain J A B hv hp.2.2⟩

theorem Iso.nominal {v v' : Ref} (hm : v ∈ nodes) (hv : R v v') (hp : Nominal h' v) : Nominal k' v' := by
  unfold Nominal at *
  rw [(I.words A B hm hv).1]
  exact hp

theorem Iso.isNoun {v v' : Ref} {a : Argument} (hm : v ∈ nodes) (hv : R v v') (hp : IsNoun h' v a) : IsNoun k' v' a := by
  unfold IsNoun at *
  rw [(I.words A B hm hv).1, (I.words A B hm hv).2.1]
  exact hp

theorem Iso.activeVerb {v v' : Ref} {w : Str} (hm : v ∈ nodes) (hv : R v v') : ActiveVerb (k'.node v') w ↔ ActiveVerb (h'.node v) w := by
  unfold ActiveVerb
  rw [(I.words A B hm hv).2.2.2.2.2]

theorem Iso.adjCode {v v' : Ref} {w : Str} (hm : v ∈ nodes) (hv : R v v') (hp : AdjCode (h'.node v) w) : AdjCode (k'.node v') w := by
  cases hp with
  | pp h => exact .pp ((I.activeVerb J A B hm hv).mpr h)
  | adj h => exact .adj fun w hw => h w ((I.activeVerb J A B hm hv).mp hw)

theorem Iso.isAdj {v v' : Ref} {a : Argument} (hm : v ∈ nodes) (hv : R v v') (hp : IsAdj h' v a) : IsAdj k' v' a := by
  unfold IsAdj at *
  rw [(I.words A B hm hv).2.1]
  exact ⟨hp.1, I.adjCode J A B hm hv hp.2.1, hp.2.2⟩

theorem Iso.isProp {v v' : Ref} {a : Argument} (hm : v ∈ nodes) (hv : R v v') (hp : IsProp h' v a) : IsProp k' v' a := by
  unfold IsProp PropCode at *
  rw [(I.words A B hm hv).2.1, (I.words A B hm hv).1]
  exact ⟨hp.1, hp.2.1.imp (fun ⟨h1, h2⟩ => ⟨h1, I.adjCode J A B hm hv h2⟩) id, hp.2.2⟩

theorem Iso.clause {s v o v' : Ref} (hv : R v v') (H : Clause h' nodes s v o) :
    ∃ s' o', R s s' ∧ R o o' ∧ s ∈ nodes ∧ o ∈ nodes ∧ Clause k' modes s' v' o' := by
  obtain ⟨h1, h2, h3, h4, h5, h6⟩ := H
  obtain ⟨s', s1, s2, s3⟩ := I.subjs J A B hv h3
  obtain ⟨o', o1, o2, o3⟩ := I.objs J A B hv h5
  exact ⟨s', o', s1, o1, s2, o2, I.mem hv h1, I.heads J A B h1 hv h2, s3, I.nominal J A B s2 s1 h4, o3,
    by rw [(I.words A B o2 o1).1, h6]⟩

theorem Iso.embedded {o o' : Ref} (ho : R o o') (H : Embedded h' nodes o) : Embedded k' modes o' := by
  obtain ⟨s, v, hc⟩ := H
  obtain ⟨v', hv⟩ := I.total hc.1
  obtain ⟨s', o₁, -, h2, -, -, h3⟩ := I.clause J A B hv hc
  cases I.fn h2 ho
  exact ⟨s', v', h3⟩

theorem Iso.clauseSubj {s o s₁ s' o' : Ref} (hm : s ∈ nodes) (hs : R s s') (ho : R o o') (H : ClauseSubj h' s o s₁) :
    ∃ s₂, R s₁ s₂ ∧ s₁ ∈ nodes ∧ ClauseSubj k' s' o' s₂ := by
  rcases H with ⟨h1, rfl⟩ | ⟨h1, h2, h3⟩
  · refine ⟨s', hs, hm, Or.inl ⟨nil_of_iso (fun hy => ?_) h1, rfl⟩⟩
    obtain ⟨x, -, -, hx⟩ := J.subjs I B A ho hy
    exact ⟨x, hx⟩
  · obtain ⟨s₂, q1, q2, q3⟩ := I.subjs J A B ho h2
    exact ⟨s₂, q1, q2, Or.inr ⟨List.ne_nil_of_mem q3, q3, I.nominal J A B q2 q1 h3⟩⟩

theorem Iso.past {v v' : Ref} (pp : Str → Str) (hm : v ∈ nodes) (hv : R v v') :
    Spec.pastParticiple pp k' v' = Spec.pastParticiple pp h' v := by
  unfold Spec.pastParticiple
  rw [(I.words A B hm hv).2.2.1, (I.words A B hm hv).2.2.2.1]

theorem Iso.subjPolarity {v v' : Ref} (hv : R v v') : subjPolarity k' v' = subjPolarity h' v := by
  unfold Spec.subjPolarity
  by_cases e : (h'.node v).subjs = []
  · rw [if_pos e, if_pos]
    refine nil_of_iso (fun hy => ?_) e
    obtain ⟨x, -, -, hx⟩ := J.subjs I B A hv hy
    exact ⟨x, hx⟩
  · rw [if_neg e, if_neg]
    · congr 1
      rw [decide_eq_decide]
      constructor
      · rintro ⟨s, h1, h2⟩
        obtain ⟨s', q1, q2, q3⟩ := J.subjs I B A hv h1
        exact ⟨s', q3, by rw [J.aff I B A q2 q1]; exact h2⟩
      · rintro ⟨s, h1, h2⟩
        obtain ⟨s', q1, q2, q3⟩ := I.subjs J A B hv h1
        exact ⟨s', q3, by rw [I.aff J A B q2 q1]; exact h2⟩
    · intro e'
      refine e (nil_of_iso (fun hy => ?_) e')
      obtain ⟨x, -, -, hx⟩ := I.subjs J A B hv hy
      exact ⟨x, hx⟩

/-- What the first nodes say, the second ones say. -/
theorem Iso.said {pp : Str → Str} {args : List Argument} (H : Said pp h' nodes args) : Said pp k' modes args := by
  have aff := @Iso.aff h k nt mt nodes modes R h' k' I J A B
  have noun := @Iso.isNoun h k nt mt nodes modes R h' k' I J A B
  have nom := @Iso.nominal h k nt mt nodes modes R h' k' I J A B
  have canon : ∀ {v v' : Ref}, v ∈ nodes → R v v' → (k'.node v').canon = (h'.node v).canon := fun h1 h2 => (I.words A B h1 h2).2.1
  have tag : ∀ {v v' : Ref}, v ∈ nodes → R v v' → (k'.node v').tag = (h'.node v).tag := fun h1 h2 => (I.words A B h1 h2).1
  have noObj : ∀ {v v' : Ref}, R v v' → (h'.node v).objs = [] → (k'.node v').objs = [] := fun hv h => by
    refine nil_of_iso (fun hy => ?_) h
    obtain ⟨x, -, -, hx⟩ := J.objs I B A hv hy
    exact ⟨x, hx⟩
  have emb : ∀ {v v' : Ref}, R v v' → ¬ Embedded h' nodes v → ¬ Embedded k' modes v' := fun hv h h' => h (J.embedded I B A hv h')
  cases H with
  | clauseIntr h1 h2 h3 h4 h5 h6 h7 =>
    obtain ⟨v', hv⟩ := I.total h1.1
    obtain ⟨s', o', s1, o1, s2, o2, c1⟩ := I.clause J A B hv h1
    obtain ⟨x, x1, x2, x3⟩ := I.clauseSubj J A B s2 s1 o1 h2
    rw [← canon h1.1 hv, ← canon o2 o1, ← aff s2 s1, ← aff h1.1 hv, ← aff x2 x1, ← aff o2 o1]
    rw [← canon o2 o1] at h5
    exact .clauseIntr c1 x3 (I.plain J A B o1 h3) (noObj o1 h4) h5 (noun s2 s1 h6) (noun x2 x1 h7)
  | clauseTrans h1 h2 h3 h4 h5 h6 h7 h8 =>
    obtain ⟨v', hv⟩ := I.total h1.1
    obtain ⟨s', o', s1, o1, s2, o2, c1⟩ := I.clause J A B hv h1
    obtain ⟨x, x1, x2, x3⟩ := I.clauseSubj J A B s2 s1 o1 h2
    obtain ⟨y, y1, y2, y3⟩ := I.objs J A B o1 h4
    rw [← canon h1.1 hv, ← canon o2 o1, ← aff s2 s1, ← aff h1.1 hv, ← aff x2 x1, ← aff o2 o1, ← aff y2 y1]
    exact .clauseTrans c1 x3 (I.plain J A B o1 h3) y3 (nom y2 y1 h5) (noun s2 s1 h6) (noun x2 x1 h7) (noun y2 y1 h8)
  | clauseProp h1 h2 h3 h4 h5 h6 =>
    obtain ⟨v', hv⟩ := I.total h1.1
    obtain ⟨s', o', s1, o1, s2, o2, c1⟩ := I.clause J A B hv h1
    obtain ⟨x, x1, x2, x3⟩ := I.clauseSubj J A B s2 s1 o1 h2
    obtain ⟨y, y1, y2, y3⟩ := I.props J A B o1 h3
    rw [← canon h1.1 hv, ← canon o2 o1, ← aff s2 s1, ← aff h1.1 hv, ← aff x2 x1, ← aff o2 o1, ← aff y2 y1]
    exact .clauseProp c1 x3 y3 (noun s2 s1 h4) (noun x2 x1 h5) (I.isProp J A B y2 y1 h6)
  | intr h1 h2 h3 h4 h5 h6 h7 h8 =>
    obtain ⟨v', hv⟩ := I.total h1
    obtain ⟨s', s1, s2, s3⟩ := I.subjs J A B hv h6
    rw [← canon h1 hv] at h5
    rw [← canon h1 hv, ← aff s2 s1, ← aff h1 hv]
    exact .intr (I.mem hv h1) (emb hv h2) (I.heads J A B h1 hv h3) (noObj hv h4) h5 s3 (nom s2 s1 h7) (noun s2 s1 h8)
  | trans h1 h2 h3 h4 h5 h6 h7 h8 h9 =>
    obtain ⟨v', hv⟩ := I.total h1
    obtain ⟨s', s1, s2, s3⟩ := I.subjs J A B hv h4
    obtain ⟨o', o1, o2, o3⟩ := I.objs J A B hv h6
    rw [← canon h1 hv, ← aff s2 s1, ← aff h1 hv, ← aff o2 o1]
    exact .trans (I.mem hv h1) (emb hv h2) (I.heads J A B h1 hv h3) s3 (nom s2 s1 h5) o3 (nom o2 o1 h7) (noun s2 s1 h8) (noun o2 o1 h9)
  | recip h1 h2 h3 h4 h5 h6 h7 h8 h9 =>
    obtain ⟨v', hv⟩ := I.total h1
    obtain ⟨s', s1, s2, s3⟩ := I.subjs J A B hv h4
    obtain ⟨o', o1, o2, o3⟩ := I.iobjs J A B hv h6
    rw [← canon h1 hv, ← aff s2 s1, ← aff h1 hv, ← aff o2 o1]
    exact .recip (I.mem hv h1) (emb hv h2) (I.heads J A B h1 hv h3) s3 (nom s2 s1 h5) o3 (nom o2 o1 h7) (noun s2 s1 h8) (noun o2 o1 h9)
  | passive h1 h2 h3 h4 h5 h6 h7 =>
    obtain ⟨v', hv⟩ := I.total h1
    obtain ⟨o', o1, o2, o3⟩ := I.objs J A B hv h5
    rw [← canon h1 hv] at h4
    rw [← I.past J A B pp h1 hv, ← I.subjPolarity J A B hv, ← aff h1 hv, ← aff o2 o1]
    exact .passive (I.mem hv h1) (by rw [tag h1 hv, h2]) (I.plain J A B hv h3) h4 o3 (nom o2 o1 h6) (noun o2 o1 h7)
  | @indirect n s v p _ _ h1 h2 h3 h4 h5 h6 =>
    obtain ⟨n', hn⟩ := I.total h1
    rw [A.svis] at h3
    obtain ⟨s', v', p', e1, e2, v1, p1, v2, p2, H⟩ := I.ipropOf J hn h3
    rw [← B.svis] at H
    have es : (s.map fun s => (h'.node s).isAff) = s'.map fun s => (k'.node s).isAff := by
      cases s with
      | none => rw [e2 rfl]; rfl
      | some x =>
        obtain ⟨x', rfl, x1, x2⟩ := e1 rfl
        simp only [Option.map_some, aff x2 x1]
    rw [es, ← I.past J A B pp v2 v1, ← aff v2 v1, ← aff h1 hn, ← aff p2 p1]
    exact .indirect (I.mem hn h1) (nom h1 hn h2) H (by rw [tag p2 p1]; exact h4) (noun h1 hn h5) (I.isProp J A B p2 p1 h6)
  | copula h1 h2 h3 h4 h5 h6 =>
    obtain ⟨n', hn⟩ := I.total h1
    obtain ⟨c', p', c1, p1, c2, p2, H⟩ := I.copulas J A B hn h3
    rw [← canon c2 c1, ← aff c2 c1, ← aff h1 hn, ← aff p2 p1]
    exact .copula (I.mem hn h1) (nom h1 hn h2) H (by rw [tag p2 p1]; exact h4) (noun h1 hn h5) (I.isProp J A B p2 p1 h6)
  | copulaActive h1 h2 h3 h4 h5 h6 h7 h8 h9 =>
    obtain ⟨n', hn⟩ := I.total h1
    obtain ⟨c', p', c1, p1, c2, p2, H⟩ := I.copulas J A B hn h3
    obtain ⟨x, x1, x2, x3⟩ := I.agents J A B p1 h6
    rw [← aff h1 hn, ← aff p2 p1, ← aff x2 x1]
    exact .copulaActive (I.mem hn h1) (nom h1 hn h2) H (by rw [tag p2 p1, h4]) ((I.activeVerb J A B p2 p1).mpr h5) x3 (nom x2 x1 h7)
      (noun x2 x1 h8) (noun h1 hn h9)
  | participle h1 h2 h3 h4 h5 h6 =>
    obtain ⟨n', hn⟩ := I.total h1
    obtain ⟨c', p', c1, p1, c2, p2, H⟩ := I.pps J A B hn h3
    rw [← canon c2 c1, ← aff c2 c1, ← aff h1 hn, ← aff p2 p1]
    exact .participle (I.mem hn h1) (nom h1 hn h2) H (by rw [tag p2 p1]; exact h4) (noun h1 hn h5) (I.isProp J A B p2 p1 h6)
  | adjective h1 h2 h3 h4 h5 =>
    obtain ⟨n', hn⟩ := I.total h1
    obtain ⟨p', p1, p2, H⟩ := I.adjs J A B hn h3
    rw [← aff h1 hn, ← aff p2 p1]
    exact .adjective (I.mem hn h1) (nom h1 hn h2) H (noun h1 hn h4) (I.isAdj J A B p2 p1 h5)
  | adjectiveActive h1 h2 h3 h4 h5 h6 h7 h8 =>
    obtain ⟨n', hn⟩ := I.total h1
    obtain ⟨p', p1, p2, H⟩ := I.adjs J A B hn h3
    obtain ⟨x, x1, x2, x3⟩ := I.agents J A B p1 h5
    rw [← aff h1 hn, ← aff p2 p1, ← aff x2 x1]
    exact .adjectiveActive (I.mem hn h1) (nom h1 hn h2) H ((I.activeVerb J A B p2 p1).mpr h4) x3 (nom x2 x1 h6) (noun x2 x1 h7)
      (noun h1 hn h8)

end

end Model
