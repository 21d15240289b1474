import Verif.Lemmas.Exactly

/-! Lemmas for exactly what a parse states: the arguments of nodes are those of their tokens. -/

namespace Model
open Py Spec

variable {ck : Bool} {c : Logic} {tokens : List Str} {tg : List Tag} {t : Tree Dep Nat} {h h' : Heap} {nt : Tree Dep Ref}
  {nodes : List Ref} {pos : Dict Nat Ref}

section
variable (L : Linked ck c tokens tg t h nt nodes pos) (T : NeatParse t)
include L T

theorem Linked.relative_iff {v i n : Nat} {rv ri rn : Ref} (hv : At t nodes pos v rv) (hi : At t nodes pos i ri)
    (hn : At t nodes pos n rn) : RelReferent h nt rv ri rn ↔ Exactly.RelativeTo ck c tokens tg t v i n := by
  unfold RelReferent Exactly.RelativeTo
  rw [L.parent_iff hn hv, L.unmarked_iff T hv, ← L.nominal_iff T hn]
  constructor
  · rintro ⟨h1, h2, h3⟩
    exact ⟨⟨_, by rcases h2 with e | e | e <;> rw [e] <;> decide, (L.written_iff T hi).mpr ⟨h1, rfl⟩⟩, h3⟩
  · rintro ⟨⟨w, h1, h2⟩, h3⟩
    obtain ⟨e1, rfl⟩ := (L.written_iff T hi).mp h2
    refine ⟨e1, ?_, h3⟩
    simpa [relatives] using h1

theorem Linked.relativeRef {v i n : Nat} (H : Exactly.RelativeTo ck c tokens tg t v i n) : ∃ rn, At t nodes pos n rn := by
  obtain ⟨rn, -, hn, -⟩ := L.ends T H.2.1 (by decide)
  exact ⟨rn, hn⟩

theorem Linked.relativeTok {v : Nat} {rv ri rn : Ref} (hv : At t nodes pos v rv) (H : RelReferent h nt rv ri rn) :
    ∃ n, At t nodes pos n rn := by
  obtain ⟨n, hn, -⟩ := L.up T H.2.2.1 hv.pos (by decide)
  exact ⟨n, hn⟩

theorem Linked.self_iff {i : Nat} {ri : Ref} (hi : At t nodes pos i ri) : Spec.Reflexive h ri ↔ Exactly.Self ck c tokens tg t i := by
  constructor
  · intro H
    exact ⟨_, _, H, (L.written_iff T hi).mpr ⟨rfl, rfl⟩⟩
  · rintro ⟨tag, w, h1, h2⟩
    obtain ⟨-, rfl⟩ := (L.written_iff T hi).mp h2
    exact h1

/-- What is meant by a node is the node of what is meant by the token. -/
theorem Linked.meant_iff {rel refl : Ref → Prop} {rel' refl' : Nat → Prop} {i x : Nat} {ri rx : Ref} (hi : At t nodes pos i ri)
    (hx : At t nodes pos x rx) (e1 : ∀ {y ry}, At t nodes pos y ry → (rel ry ↔ rel' y)) (a1 : ∀ {ry}, rel ry → ∃ y, At t nodes pos y ry)
    (b1 : ∀ {y}, rel' y → ∃ ry, At t nodes pos y ry) (e2 : ∀ {y ry}, At t nodes pos y ry → (refl ry ↔ refl' y))
    (a2 : ∀ {ry}, refl ry → ∃ y, At t nodes pos y ry) (b2 : ∀ {y}, refl' y → ∃ ry, At t nodes pos y ry) :
    Meant rel refl ri rx ↔ Meant rel' refl' i x := by
  have n1 : (∀ y, ¬ rel y) ↔ ∀ y, ¬ rel' y := by
    constructor
    · intro H y hy
      obtain ⟨ry, h⟩ := b1 hy
      exact H ry ((e1 h).mpr hy)
    · intro H y hy
      obtain ⟨ry, h⟩ := a1 hy
      exact H ry ((e1 h).mp hy)
  have n2 : (∀ y, ¬ refl y) ↔ ∀ y, ¬ refl' y := by
    constructor
    · intro H y hy
      obtain ⟨ry, h⟩ := b2 hy
      exact H ry ((e2 h).mpr hy)
    · intro H y hy
      obtain ⟨ry, h⟩ := a2 hy
      exact H ry ((e2 h).mp hy)
  have n3 : rx = ri ↔ x = i := ⟨by rintro rfl; exact L.inj hx.pos hi.pos, by rintro rfl; exact L.fn hx.pos hi.pos⟩
  unfold Meant
  rw [e1 hx, e2 hx, n1, n2, n3]

omit L T in
theorem meantIn {rel refl : Ref → Prop} {i : Nat} {ri rx : Ref} (hi : At t nodes pos i ri)
    (a1 : ∀ {ry}, rel ry → ∃ y, At t nodes pos y ry) (a2 : ∀ {ry}, refl ry → ∃ y, At t nodes pos y ry)
    (H : Meant rel refl ri rx) : ∃ x, At t nodes pos x rx := by
  rcases H with H | ⟨-, H⟩ | ⟨-, -, rfl⟩
  · exact a1 H
  · exact a2 H
  · exact ⟨i, hi⟩

omit L T in
theorem meantTok {rel refl : Nat → Prop} {i x : Nat} {ri : Ref} (hi : At t nodes pos i ri)
    (b1 : ∀ {y}, rel y → ∃ ry, At t nodes pos y ry) (b2 : ∀ {y}, refl y → ∃ ry, At t nodes pos y ry)
    (H : Meant rel refl i x) : ∃ rx, At t nodes pos x rx := by
  rcases H with H | ⟨-, H⟩ | ⟨-, -, rfl⟩
  · exact b1 H
  · exact b2 H
  · exact ⟨ri, hi⟩

theorem Linked.firstRef {d : Dep} {v x : Nat} (hd : d ∉ functional) (H : Exactly.First t v d x) :
    ∃ rv rx, At t nodes pos v rv ∧ At t nodes pos x rx :=
  L.ends T (firstArc H) hd

theorem Linked.reflexSubj_iff {v i s : Nat} {rv ri rs : Ref} (hv : At t nodes pos v rv) (hi : At t nodes pos i ri)
    (hs : At t nodes pos s rs) : ReflexiveSubj h nt rv ri rs ↔ Exactly.Self ck c tokens tg t i ∧
      ∃ p, (.OBJ, v) ∈ t.children p ∧ Exactly.Taken c tokens tg t p .VERB ∧ Exactly.First t p .SUBJ s := by
  unfold ReflexiveSubj
  rw [L.self_iff T hi]
  refine and_congr_right fun _ => ?_
  constructor
  · rintro ⟨rp, h1, h2, h3⟩
    obtain ⟨p, hp, h4⟩ := L.up T h1 hv.pos (by decide)
    exact ⟨p, h4, (L.taken_iff T hp).mpr h2, (L.first_iff T hp.pos hs.pos (by decide)).mp h3⟩
  · rintro ⟨p, h1, h2, h3⟩
    obtain ⟨rp, _, hp, -⟩ := L.ends T h1 (by decide)
    exact ⟨rp, (L.parent_iff hp hv).mpr h1, (L.taken_iff T hp).mp h2, (L.first_iff T hp.pos hs.pos (by decide)).mpr h3⟩

theorem Linked.reflexObj_iff {v i s : Nat} {rv ri rs : Ref} (hv : At t nodes pos v rv) (hi : At t nodes pos i ri)
    (hs : At t nodes pos s rs) : ReflexiveObj h nt rv ri rs ↔ Exactly.Self ck c tokens tg t i ∧ Exactly.First t v .SUBJ s := by
  unfold ReflexiveObj
  rw [L.self_iff T hi, L.first_iff T hv.pos hs.pos (by decide)]

theorem Linked.subjectMeant_iff {v i s : Nat} {rv ri rs : Ref} (hv : At t nodes pos v rv) (hi : At t nodes pos i ri)
    (hs : At t nodes pos s rs) : Meant (RelReferent h nt rv ri) (ReflexiveSubj h nt rv ri) ri rs ↔
      Exactly.SubjectMeant ck c tokens tg t v i s :=
  L.meant_iff T hi hs (fun hy => L.relative_iff T hv hi hy) (L.relativeTok T hv) (L.relativeRef T)
    (fun hy => L.reflexSubj_iff T hv hi hy)
    (fun ⟨_, p, h1, h2, h3⟩ => by
      obtain ⟨q, hq, -⟩ := L.up T h1 hv.pos (by decide)
      obtain ⟨y, hy, -⟩ := L.firstChild T h3 hq.pos (by decide)
      exact ⟨y, hy⟩)
    fun ⟨_, p, h1, h2, h3⟩ => by
      obtain ⟨_, y, -, hy⟩ := L.firstRef T (by decide) h3
      exact ⟨y, hy⟩

theorem Linked.objectMeant_iff {v i s : Nat} {rv ri rs : Ref} (hv : At t nodes pos v rv) (hi : At t nodes pos i ri)
    (hs : At t nodes pos s rs) : Meant (RelReferent h nt rv ri) (ReflexiveObj h nt rv ri) ri rs ↔
      Exactly.ObjectMeant ck c tokens tg t v i s :=
  L.meant_iff T hi hs (fun hy => L.relative_iff T hv hi hy) (L.relativeTok T hv) (L.relativeRef T)
    (fun hy => L.reflexObj_iff T hv hi hy)
    (fun ⟨_, h3⟩ => by
      obtain ⟨y, hy, -⟩ := L.firstChild T h3 hv.pos (by decide)
      exact ⟨y, hy⟩)
    fun ⟨_, h3⟩ => by
      obtain ⟨_, y, -, hy⟩ := L.firstRef T (by decide) h3
      exact ⟨y, hy⟩

theorem Linked.sharesSubj_iff {v w : Nat} {rv rw : Ref} (hv : At t nodes pos v rv) (hw : At t nodes pos w rw) :
    SharesSubj nt nodes rv rw ↔ (w = v ∨ Member t v w ∧ Lacks t w .SUBJ) := by
  have e : rw = rv ↔ w = v := ⟨by rintro rfl; exact L.inj hw.pos hv.pos, by rintro rfl; exact L.fn hw.pos hv.pos⟩
  unfold SharesSubj
  rw [e, L.lacks_iff T hw (by decide), ← L.member_iff T hv hw, Spec.Group, e]
  tauto

theorem Linked.sharesObj_iff {v w : Nat} {rv rw : Ref} (hv : At t nodes pos v rv) (hw : At t nodes pos w rw) :
    SharesObj nt nodes rv rw ↔ (w = v ∨ Member t v w ∧ Exactly.Bare t w) := by
  have e : rw = rv ↔ w = v := ⟨by rintro rfl; exact L.inj hw.pos hv.pos, by rintro rfl; exact L.fn hw.pos hv.pos⟩
  unfold SharesObj
  rw [e, L.bare_iff T hw, ← L.member_iff T hv hw, Spec.Group, e]
  tauto

/-- The token side of subjects. -/
theorem Linked.subjectRefs {v s : Nat} (H : Exactly.Subject ck c tokens tg t v s) :
    ∃ rv rs, At t nodes pos v rv ∧ At t nodes pos s rs := by
  rcases H with ⟨i, h1, h2⟩ | ⟨p, h1, -, -, -, -, h2⟩
  · obtain ⟨rv, ri, hv, hi⟩ := L.ends T h1 (by decide)
    obtain ⟨rs, hs⟩ := meantTok hi (L.relativeRef T) (fun ⟨_, p, _, _, h3⟩ => by
      obtain ⟨_, y, -, hy⟩ := L.firstRef T (by decide) h3
      exact ⟨y, hy⟩) h2
    exact ⟨rv, rs, hv, hs⟩
  · obtain ⟨_, rv, -, hv⟩ := L.ends T h1 (by decide)
    obtain ⟨_, rs, -, hs⟩ := L.firstRef T (by decide) h2
    exact ⟨rv, rs, hv, hs⟩

theorem Linked.actsRefs {v s : Nat} (H : Exactly.Acts ck c tokens tg t v s) :
    ∃ rv rs, At t nodes pos v rv ∧ At t nodes pos s rs := by
  obtain ⟨v₀, s₀, h1, h2, h3⟩ := H
  obtain ⟨rv, rs, hv, hs⟩ := L.subjectRefs T h1
  obtain ⟨rs', hs'⟩ := L.memberRef T hs h2
  rcases h3 with rfl | ⟨h3, -⟩
  · exact ⟨rv, rs', hv, hs'⟩
  · obtain ⟨rv', hv'⟩ := L.memberRef T hv h3
    exact ⟨rv', rs', hv', hs'⟩

theorem Linked.objectRefs {v s : Nat} (H : Exactly.Object ck c tokens tg t v s) :
    ∃ rv rs, At t nodes pos v rv ∧ At t nodes pos s rs := by
  rcases H with ⟨i, h1, h2⟩ | ⟨p, tag, w, h1, -⟩
  · obtain ⟨rv, ri, hv, hi⟩ := L.ends T h1 (by decide)
    obtain ⟨rs, hs⟩ := meantTok hi (L.relativeRef T) (fun ⟨_, h3⟩ => by
      obtain ⟨_, y, -, hy⟩ := L.firstRef T (by decide) h3
      exact ⟨y, hy⟩) h2
    exact ⟨rv, rs, hv, hs⟩
  · obtain ⟨rs, rv, hs, hv⟩ := L.ends T h1 (by decide)
    exact ⟨rv, rs, hv, hs⟩

theorem Linked.undergoesRefs {v s : Nat} (H : Exactly.Undergoes ck c tokens tg t v s) :
    ∃ rv rs, At t nodes pos v rv ∧ At t nodes pos s rs := by
  obtain ⟨v₀, s₀, h1, h2, h3⟩ := H
  obtain ⟨rv, rs, hv, hs⟩ := L.objectRefs T h1
  obtain ⟨rs', hs'⟩ := L.memberRef T hs h2
  rcases h3 with rfl | ⟨h3, -⟩
  · exact ⟨rv, rs', hv, hs'⟩
  · obtain ⟨rv', hv'⟩ := L.memberRef T hv h3
    exact ⟨rv', rs', hv', hs'⟩

theorem Linked.acts_iff {v s : Nat} {rv rs : Ref} (hv : At t nodes pos v rv) (hs : At t nodes pos s rs) :
    SubjOf h nt nodes rv rs ↔ Exactly.Acts ck c tokens tg t v s := by
  constructor
  · rintro (⟨verb, node, ref, hn, hp, hm, hg, hw⟩ | ⟨verb, p, subj, hn, hp, hm, ht, hns, htp, hf, hg, hw⟩)
    · obtain ⟨i, hi⟩ := L.at_mem T hn
      obtain ⟨v₀, h₀, a₀⟩ := L.up T hp hi.pos (by decide)
      obtain ⟨x, hx⟩ := meantIn hi (L.relativeTok T h₀) (fun ⟨_, p, h1, h2, h3⟩ => by
        obtain ⟨q, hq, -⟩ := L.up T h1 h₀.pos (by decide)
        obtain ⟨y, hy, -⟩ := L.firstChild T h3 hq.pos (by decide)
        exact ⟨y, hy⟩) hm
      exact ⟨v₀, x, Or.inl ⟨i, a₀, (L.subjectMeant_iff T h₀ hi hx).mp hm⟩, (L.member_iff T hx hs).mp hg,
        (L.sharesSubj_iff T h₀ hv).mp hw⟩
    · obtain ⟨v₀, h₀⟩ := L.at_mem T hn
      obtain ⟨q, hq, a₀⟩ := L.up T hp h₀.pos (by decide)
      obtain ⟨x, hx, -⟩ := L.firstChild T hf hq.pos (by decide)
      exact ⟨v₀, x, Or.inr ⟨q, a₀, (L.has_iff T h₀ (by decide)).mp hm, (L.taken_iff T h₀).mpr ht,
        (L.lacks_iff T h₀ (by decide)).mp hns, (L.taken_iff T hq).mpr htp, (L.first_iff T hq.pos hx.pos (by decide)).mp hf⟩,
        (L.member_iff T hx hs).mp hg, (L.sharesSubj_iff T h₀ hv).mp hw⟩
  · rintro ⟨v₀, x, h1, h2, h3⟩
    obtain ⟨r₀, rx, h₀, hx⟩ := L.subjectRefs T h1
    have h2' := (L.member_iff T hx hs).mpr h2
    have h3' := (L.sharesSubj_iff T h₀ hv).mpr h3
    rcases h1 with ⟨i, q1, q2⟩ | ⟨p, q1, q2, q3, q4, q5, q6⟩
    · obtain ⟨_, ri, -, hi⟩ := L.ends T q1 (by decide)
      exact Or.inl ⟨r₀, ri, rx, hi.mem, (L.parent_iff h₀ hi).mpr q1, (L.subjectMeant_iff T h₀ hi hx).mpr q2, h2', h3'⟩
    · obtain ⟨rp, _, hp, -⟩ := L.ends T q1 (by decide)
      exact Or.inr ⟨r₀, rp, rx, h₀.mem, (L.parent_iff hp h₀).mpr q1, (L.has_iff T h₀ (by decide)).mpr q2,
        (L.taken_iff T h₀).mp q3, (L.lacks_iff T h₀ (by decide)).mpr q4, (L.taken_iff T hp).mp q5,
        (L.first_iff T hp.pos hx.pos (by decide)).mpr q6, h2', h3'⟩

theorem Linked.undergoes_iff {v s : Nat} {rv rs : Ref} (hv : At t nodes pos v rv) (hs : At t nodes pos s rs) :
    ObjOf h nt nodes rv rs ↔ Exactly.Undergoes ck c tokens tg t v s := by
  constructor
  · rintro (⟨verb, node, ref, hn, hp, hm, hg, hw⟩ | ⟨verb, p, subj, hn, hp, hm, ht, hno, hf, hc, hg, hw⟩)
    · obtain ⟨i, hi⟩ := L.at_mem T hn
      obtain ⟨v₀, h₀, a₀⟩ := L.up T hp hi.pos (by decide)
      obtain ⟨x, hx⟩ := meantIn hi (L.relativeTok T h₀) (fun ⟨_, h3⟩ => by
        obtain ⟨y, hy, -⟩ := L.firstChild T h3 h₀.pos (by decide)
        exact ⟨y, hy⟩) hm
      exact ⟨v₀, x, Or.inl ⟨i, a₀, (L.objectMeant_iff T h₀ hi hx).mp hm⟩, (L.member_iff T hx hs).mp hg,
        (L.sharesObj_iff T h₀ hv).mp hw⟩
    · obtain ⟨v₀, h₀⟩ := L.at_mem T hn
      obtain ⟨q, hq, a₀⟩ := L.up T hp h₀.pos (by decide)
      obtain ⟨x, hx, -⟩ := L.firstChild T hf h₀.pos (by decide)
      exact ⟨v₀, q, Or.inr ⟨x, _, _, a₀, (L.unmarked_iff T h₀).mp hm, (L.nominal_iff T hq).mpr ht,
        (L.lacks_iff T h₀ (by decide)).mp hno, (L.first_iff T h₀.pos hx.pos (by decide)).mp hf,
        (L.written_iff T hx).mpr ⟨rfl, rfl⟩, hc⟩,
        (L.member_iff T hq hs).mp hg, (L.sharesObj_iff T h₀ hv).mp hw⟩
  · rintro ⟨v₀, x, h1, h2, h3⟩
    obtain ⟨r₀, rx, h₀, hx⟩ := L.objectRefs T h1
    have h2' := (L.member_iff T hx hs).mpr h2
    have h3' := (L.sharesObj_iff T h₀ hv).mpr h3
    rcases h1 with ⟨i, q1, q2⟩ | ⟨i, tag, w, q1, q2, q3, q4, q5, q6, q7⟩
    · obtain ⟨_, ri, -, hi⟩ := L.ends T q1 (by decide)
      exact Or.inl ⟨r₀, ri, rx, hi.mem, (L.parent_iff h₀ hi).mpr q1, (L.objectMeant_iff T h₀ hi hx).mpr q2, h2', h3'⟩
    · obtain ⟨_, ri, -, hi⟩ := L.firstRef T (by decide) q5
      obtain ⟨-, rfl⟩ := (L.written_iff T hi).mp q6
      exact Or.inr ⟨r₀, rx, ri, h₀.mem, (L.parent_iff hx h₀).mpr q1, (L.unmarked_iff T h₀).mpr q2,
        (L.nominal_iff T hx).mp q3, (L.lacks_iff T h₀ (by decide)).mpr q4,
        (L.first_iff T h₀.pos hi.pos (by decide)).mpr q5, q7, h2', h3'⟩

theorem Linked.hangs_iff {d : Dep} {v x : Nat} {rv rx : Ref} (hd : d ∉ functional) (hv : At t nodes pos v rv)
    (hx : At t nodes pos x rx) : AttachedBy nt nodes d rv rx ↔ Hangs t d v x := by
  constructor
  · rintro ⟨node, hn, hp, hg⟩
    obtain ⟨i, i1, i2⟩ := L.down T (L.parMem hp) hv.pos hd
    exact ⟨i, i2, (L.member_iff T i1 hx).mp hg⟩
  · rintro ⟨i, h1, h2⟩
    obtain ⟨_, ri, -, hi⟩ := L.ends T h1 hd
    exact ⟨ri, hi.mem, (L.parent_iff hv hi).mpr h1, (L.member_iff T hi hx).mpr h2⟩

theorem Linked.hangsRefs {d : Dep} {v x : Nat} (hd : d ∉ functional) (H : Hangs t d v x) :
    ∃ rv rx, At t nodes pos v rv ∧ At t nodes pos x rx := by
  obtain ⟨i, h1, h2⟩ := H
  obtain ⟨rv, ri, hv, hi⟩ := L.ends T h1 hd
  obtain ⟨rx, hx⟩ := L.memberRef T hi h2
  exact ⟨rv, rx, hv, hx⟩

theorem Linked.linking_iff {n v p : Nat} {rn rv rp : Ref} (hn : At t nodes pos n rn) (hv : At t nodes pos v rv)
    (hp : At t nodes pos p rp) : CopulaOf h nt nodes rn rv rp ↔ Exactly.Linking ck c tokens tg t n v p := by
  have mi : ∀ {i s : Nat} {ri rs : Ref}, At t nodes pos i ri → At t nodes pos s rs →
      (Meant (RelReferent h nt rv ri) (fun _ => False) ri rs ↔ Meant (Exactly.RelativeTo ck c tokens tg t v i) (fun _ => False) i s) :=
    fun hi hs => L.meant_iff T hi hs (fun hy => L.relative_iff T hv hi hy) (L.relativeTok T hv) (L.relativeRef T)
      (fun _ => Iff.rfl) (fun k => k.elim) fun k => k.elim
  constructor
  · rintro ⟨node, subj, ref, h1, h2, h3, h4, h5, h6, h7⟩
    obtain ⟨q, hq⟩ := L.at_mem T h1
    obtain ⟨i, hi, -⟩ := L.firstChild T h3 hv.pos (by decide)
    obtain ⟨s, hs⟩ := meantIn hi (L.relativeTok T hv) (fun k => k.elim) h4
    exact ⟨i, s, q, (L.parent_iff hv hq).mp h2, (L.member_iff T hq hp).mp h6, (L.unmarked_iff T hp).mp h7,
      (L.first_iff T hv.pos hi.pos (by decide)).mp h3, (mi hi hs).mp h4, (L.member_iff T hs hn).mp h5⟩
  · rintro ⟨i, s, q, h1, h2, h3, h4, h5, h6⟩
    obtain ⟨_, rq, -, hq⟩ := L.ends T h1 (by decide)
    obtain ⟨_, ri, -, hi⟩ := L.firstRef T (by decide) h4
    obtain ⟨rs, hs⟩ := meantTok hi (L.relativeRef T) (fun k => k.elim) h5
    exact ⟨rq, ri, rs, hq.mem, (L.parent_iff hv hq).mpr h1, (L.first_iff T hv.pos hi.pos (by decide)).mpr h4, (mi hi hs).mpr h5,
      (L.member_iff T hs hn).mpr h6, (L.member_iff T hq hp).mpr h2, (L.unmarked_iff T hp).mpr h3⟩

theorem Linked.linkingRefs {n v p : Nat} (H : Exactly.Linking ck c tokens tg t n v p) :
    ∃ rn rv rp, At t nodes pos n rn ∧ At t nodes pos v rv ∧ At t nodes pos p rp := by
  obtain ⟨i, s, q, h1, h2, h3, h4, h5, h6⟩ := H
  obtain ⟨rv, rq, hv, hq⟩ := L.ends T h1 (by decide)
  obtain ⟨_, ri, -, hi⟩ := L.firstRef T (by decide) h4
  obtain ⟨rs, hs⟩ := meantTok hi (L.relativeRef T) (fun k => k.elim) h5
  obtain ⟨rn, hn⟩ := L.memberRef T hs h6
  obtain ⟨rp, hp⟩ := L.memberRef T hq h2
  exact ⟨rn, rv, rp, hn, hv, hp⟩

theorem Linked.describes_iff {n p : Nat} {rn rp : Ref} (hn : At t nodes pos n rn) (hp : At t nodes pos p rp)
    (ht : (h.node rn).tag ∈ nominal) : AdjOf h nt nodes rn rp ↔ Exactly.Describes c tokens tg t n p := by
  constructor
  · rintro (⟨node, h1, h2, h3, h4, h5⟩ | ⟨rq, h1, h2, h3, h4, h5, h6⟩)
    · obtain ⟨q, q1, q2⟩ := L.down T (L.parMem h2) hn.pos (by decide)
      exact ⟨q, (L.member_iff T q1 hp).mp h5, (L.taken_iff T q1).mpr h4, Or.inl ⟨q2, (L.lacks_iff T q1 (by decide)).mp h3⟩⟩
    · obtain ⟨q, q1, q2⟩ := L.up T h2 hn.pos (by decide)
      exact ⟨q, (L.member_iff T q1 hp).mp h6, (L.taken_iff T q1).mpr h4, Or.inr ⟨q2, (L.has_iff T hn (by decide)).mp h3⟩⟩
  · rintro ⟨q, h1, h2, ⟨h3, h4⟩ | ⟨h3, h4⟩⟩
    · obtain ⟨_, rq, -, hq⟩ := L.ends T h3 (by decide)
      exact Or.inl ⟨rq, hq.mem, (L.parent_iff hn hq).mpr h3, (L.lacks_iff T hq (by decide)).mpr h4, (L.taken_iff T hq).mp h2,
        (L.member_iff T hq hp).mpr h1⟩
    · obtain ⟨rq, _, hq, -⟩ := L.ends T h3 (by decide)
      exact Or.inr ⟨rq, hn.mem, (L.parent_iff hq hn).mpr h3, (L.has_iff T hn (by decide)).mpr h4, (L.taken_iff T hq).mp h2, ht,
        (L.member_iff T hq hp).mpr h1⟩

theorem Linked.describesRefs {n p : Nat} (H : Exactly.Describes c tokens tg t n p) :
    ∃ rn rp, At t nodes pos n rn ∧ At t nodes pos p rp := by
  obtain ⟨q, h1, h2, ⟨h3, -⟩ | ⟨h3, -⟩⟩ := H
  · obtain ⟨rn, rq, hn, hq⟩ := L.ends T h3 (by decide)
    obtain ⟨rp, hp⟩ := L.memberRef T hq h1
    exact ⟨rn, rp, hn, hp⟩
  · obtain ⟨rq, rn, hq, hn⟩ := L.ends T h3 (by decide)
    obtain ⟨rp, hp⟩ := L.memberRef T hq h1
    exact ⟨rn, rp, hn, hp⟩

theorem Linked.agent_iff {p x : Nat} {rp rx : Ref} (hp : At t nodes pos p rp) (hx : At t nodes pos x rx) :
    AgentOf h nt nodes rp rx ↔ Exactly.Agent c tokens t p x := by
  constructor
  · rintro ⟨node, rm, h1, h2, h3, h4, ⟨rq, h6⟩, h5⟩
    obtain ⟨y, y1, y2⟩ := L.down T (L.parMem h2) hp.pos (by decide)
    obtain ⟨m, m1, m2⟩ := L.child y1.pos (L.viaMem.mp (List.mem_of_mem_head? h3))
    obtain ⟨r, tok, q1, q2, q3⟩ := L.marker y1.pos m2 fun _ => noFlat L T
    cases L.fn q1 m1
    have : ∃ q, (.PROP, p) ∈ t.children q ∨ (.CPL, p) ∈ t.children q := by
      rcases h6 with h6 | h6 <;> obtain ⟨q, -, k⟩ := L.up T h6 hp.pos (by decide)
      · exact ⟨q, Or.inl k⟩
      · exact ⟨q, Or.inr k⟩
    obtain ⟨q, hq⟩ := this
    exact ⟨y, m, tok, q, y2, (L.member_iff T y1 hx).mp h5, (L.first_iff T y1.pos m1 (by decide)).mp h3, q2, by rw [← q3, h4], hq⟩
  · rintro ⟨y, m, tok, q, h1, h2, h3, h4, h5, h6⟩
    obtain ⟨_, ry, -, hy⟩ := L.ends T h1 (by decide)
    obtain ⟨rm, tok', q1, q2, q3⟩ := L.marker hy.pos (firstArc h3) fun _ => noFlat L T
    rw [h4] at q2
    cases q2
    refine ⟨ry, rm, hy.mem, (L.parent_iff hp hy).mpr h1, (L.first_iff T hy.pos q1 (by decide)).mpr h3, by rw [q3, h5], ?_,
      (L.member_iff T hy hx).mpr h2⟩
    rcases h6 with h6 | h6 <;> obtain ⟨rq, _, hq, -⟩ := L.ends T h6 (by decide)
    · exact ⟨rq, Or.inl ((L.parent_iff hq hp).mpr h6)⟩
    · exact ⟨rq, Or.inr ((L.parent_iff hq hp).mpr h6)⟩

theorem Linked.agentRefs {p x : Nat} (H : Exactly.Agent c tokens t p x) : ∃ rp rx, At t nodes pos p rp ∧ At t nodes pos x rx := by
  obtain ⟨y, m, tok, q, h1, h2, -⟩ := H
  obtain ⟨rp, ry, hp, hy⟩ := L.ends T h1 (by decide)
  obtain ⟨rx, hx⟩ := L.memberRef T hy h2
  exact ⟨rp, rx, hp, hx⟩

end
end Model
