import Verif.Lemmas.Exact
import Verif.Spec.Exactly

/-! Lemmas for exactly what a parse states: nodes and their tokens have the same tags, words and arguments. -/

namespace Model
open Py Spec

variable {ck : Bool} {c : Logic} {tokens : List Str} {tg : List Tag} {t : Tree Dep Nat} {h h' : Heap} {nt : Tree Dep Ref}
  {nodes : List Ref} {pos : Dict Nat Ref}

/-! ### Arcs -/

theorem Linked.ref (L : Linked ck c tokens tg t h nt nodes pos) {k : Nat} (hw : Word t k) : ∃ r, At t nodes pos k r := by
  obtain ⟨r, -, -, -, -, k1, k2, -⟩ := L.word hw
  exact ⟨r, k1, hw, k2⟩

section
variable (L : Linked ck c tokens tg t h nt nodes pos) (T : NeatParse t)
include L T

/-- The nodes of an arc. -/
theorem Linked.ends {d : Dep} {v x : Nat} (ha : (d, x) ∈ t.children v) (hd : d ∉ functional) :
    ∃ rv rx, At t nodes pos v rv ∧ At t nodes pos x rx := by
  obtain ⟨w1, w2⟩ := L.words T ha hd
  obtain ⟨rv, hv⟩ := L.ref w1
  obtain ⟨rx, hx⟩ := L.ref w2
  exact ⟨rv, rx, hv, hx⟩

omit T in
theorem Linked.parent_iff {d : Dep} {v x : Nat} {rv rx : Ref} (hv : At t nodes pos v rv) (hx : At t nodes pos x rx) :
    nt.parent rx = some (d, rv) ↔ (d, x) ∈ t.children v := by
  constructor
  · intro hp
    obtain ⟨w, q1, q2⟩ := L.above hx.pos hp
    cases L.inj q1 hv.pos
    exact q2
  · exact L.parent hx.word hv.pos hx.pos

theorem Linked.lacks_iff {d : Dep} {v : Nat} {rv : Ref} (hv : At t nodes pos v rv) (hd : d ≠ .FLAT ∧ d ≠ .PART) :
    ¬ HasChild nt rv d ↔ Lacks t v d := by
  refine ⟨L.lacks hv.pos hd, ?_⟩
  rintro H ⟨x, hx⟩
  obtain ⟨w, -, q⟩ := L.child hv.pos hx
  exact H w q

theorem Linked.has_iff {d : Dep} {v : Nat} {rv : Ref} (hv : At t nodes pos v rv) (hd : d ≠ .FLAT ∧ d ≠ .PART) :
    HasChild nt rv d ↔ Exactly.Has t v d := by
  have := L.lacks_iff T hv hd
  constructor
  · rintro ⟨x, hx⟩
    obtain ⟨w, -, q⟩ := L.child hv.pos hx
    exact ⟨w, q⟩
  · rintro ⟨x, hx⟩
    by_contra hn
    exact this.mp hn x hx

theorem Linked.unmarked_iff {v : Nat} {rv : Ref} (hv : At t nodes pos v rv) : ¬ HasMarker nt rv ↔ Unmarked t v := by
  refine ⟨L.notMarked hv.pos, ?_⟩
  rintro H (⟨x, hx⟩ | ⟨x, hx⟩ | ⟨x, hx⟩) <;> obtain ⟨w, -, q⟩ := L.child hv.pos hx
  · exact (H _ _ q).1 rfl
  · exact (H _ _ q).2.1 rfl
  · exact (H _ _ q).2.2 rfl

theorem Linked.bare_iff {v : Nat} {rv : Ref} (hv : At t nodes pos v rv) : nt.children rv = [] ↔ Exactly.Bare t v := by
  rw [nil_iff L T hv.pos]
  exact ⟨fun h d x hx => h _ hx, fun h x hx => h x.1 x.2 hx⟩

theorem Linked.member_iff {v x : Nat} {rv rx : Ref} (hv : At t nodes pos v rv) (hx : At t nodes pos x rx) :
    Group nt nodes rv rx ↔ Member t v x := by
  constructor
  · intro hg
    obtain ⟨j, h1, h2⟩ := L.member T hv hg
    cases L.inj h1.pos hx.pos
    exact h2
  · rintro (rfl | h | h)
    · exact Or.inl (L.fn hx.pos hv.pos)
    · exact Or.inr ⟨hv.mem, Or.inl (L.arc.mpr ⟨_, _, hv.pos, hx.pos, h⟩)⟩
    · exact Or.inr ⟨hv.mem, Or.inr (L.arc.mpr ⟨_, _, hv.pos, hx.pos, h⟩)⟩

theorem Linked.memberRef {v x : Nat} {rv : Ref} (hv : At t nodes pos v rv) (hm : Member t v x) : ∃ rx, At t nodes pos x rx := by
  rcases hm with rfl | hm | hm
  · exact ⟨rv, hv⟩
  · obtain ⟨_, rx, -, hx⟩ := L.ends T hm (by decide); exact ⟨rx, hx⟩
  · obtain ⟨_, rx, -, hx⟩ := L.ends T hm (by decide); exact ⟨rx, hx⟩

omit T in
theorem Linked.get {w : Nat} {r : Ref} (hr : (w, r) ∈ pos) : Dict.get? pos w = some r := by
  obtain ⟨r', hr'⟩ := Option.isSome_iff_exists.mp ((Dict.get?_isSome_iff _ _).mpr (List.mem_map.mpr ⟨_, hr, rfl⟩))
  rw [hr', L.fn (Dict.mem_of_get? hr') hr]

theorem Linked.first_iff {d : Dep} {v x : Nat} {rv rx : Ref} (hv : (v, rv) ∈ pos) (hx : (x, rx) ∈ pos)
    (hd : d ≠ .FLAT ∧ d ≠ .PART) : FirstChild nt rv d rx ↔ Exactly.First t v d x := by
  unfold FirstChild Exactly.First
  rw [L.viaList hv hd.1]
  have hm : ∀ y ∈ ((t.children v).filter fun a => a.1 = d).map Prod.snd, ∃ r, (y, r) ∈ pos := by
    intro y hy
    obtain ⟨⟨d', y'⟩, h1, rfl⟩ := List.mem_map.mp hy
    obtain ⟨h3, h2⟩ := List.mem_filter.mp h1
    cases of_decide_eq_true h2
    exact L.has h3 hd.1 hd.2
  generalize ((t.children v).filter fun a => a.1 = d).map Prod.snd = ws at hm
  cases ws with
  | nil => simp
  | cons y ws =>
    obtain ⟨r, hr⟩ := hm y List.mem_cons_self
    rw [List.filterMap_cons_some (L.get hr)]
    simp only [List.head?_cons, Option.some.injEq]
    constructor
    · rintro rfl; exact L.inj hr hx
    · rintro rfl; exact L.fn hr hx

omit L T in
theorem firstArc {d : Dep} {v x : Nat} (hf : Exactly.First t v d x) : (d, x) ∈ t.children v := by
  obtain ⟨⟨d', y⟩, h1, rfl⟩ := List.mem_map.mp (List.mem_of_mem_head? hf)
  obtain ⟨h3, h2⟩ := List.mem_filter.mp h1
  cases of_decide_eq_true h2
  exact h3

/-! ### Tags -/

theorem Linked.correctable_iff {k : Nat} {r : Ref} (hk : At t nodes pos k r) : Fixable h nt r ↔ Exactly.Correctable tg t k := by
  unfold Fixable Exactly.Correctable
  rw [L.bare_iff T hk]
  refine and_congr_right fun _ => ?_
  constructor
  · rintro (⟨p, h1, h2⟩ | ⟨p, h1 | h1⟩)
    · obtain ⟨q, q1, q2⟩ := L.up T h1 hk.pos (by decide)
      obtain ⟨tag, ht⟩ := tag_known L q1
      rw [tag_branch L q1 (L.parMem h1) ht] at h2
      exact ⟨q, Or.inl ⟨q2, tag, h2, ht⟩⟩
    · obtain ⟨q, q1, q2⟩ := L.up T h1 hk.pos (by decide)
      exact ⟨q, Or.inr (Or.inl q2)⟩
    · obtain ⟨q, q1, q2⟩ := L.up T h1 hk.pos (by decide)
      exact ⟨q, Or.inr (Or.inr q2)⟩
  · rintro ⟨q, ⟨h1, tag, h2, h3⟩ | h1 | h1⟩ <;> obtain ⟨rq, _, hq, -⟩ := L.ends T h1 (by decide)
    · have hp := (L.parent_iff hq hk).mpr h1
      refine Or.inl ⟨rq, hp, ?_⟩
      rw [tag_branch L hq (L.parMem hp) h3]
      exact h2
    · exact Or.inr ⟨rq, Or.inl ((L.parent_iff hq hk).mpr h1)⟩
    · exact Or.inr ⟨rq, Or.inr ((L.parent_iff hq hk).mpr h1)⟩

theorem Linked.taken_iff {k : Nat} {r : Ref} (hk : At t nodes pos k r) {tag : Tag} :
    Exactly.Taken c tokens tg t k tag ↔ (h.node r).tag = tag := by
  obtain ⟨r₁, s, tag₀, l, x, a1, -, a3, a4, a5, -, -, -, a9, -⟩ := L.word hk.word
  cases L.fn a1 hk.pos
  have hl : LemmaOf c tokens tg k l := ⟨s, tag₀, x, a3, a4, a5⟩
  obtain ⟨f1, f2⟩ := L.retag hk.word hk.pos a4 hl
  rw [L.correctable_iff T hk] at f1 f2
  constructor
  · rintro (⟨b1, b2, b3, b4, b5⟩ | ⟨b1, b2, b3, b4⟩ | ⟨b1, b2, b3⟩) <;> cases LemmaOf_unique b1 hl <;> rw [a4] at b2 <;>
      cases b2
    · exact (f1 b3).1 b4 b5
    · exact (f1 b3).2 rfl b4
    · by_cases hc : Exactly.Correctable tg t k
      · rcases a9 with a9 | ⟨-, -, ⟨q1, q2, -⟩ | ⟨q1, q2, -⟩⟩
        · exact a9
        · exact absurd q2 ((b3 hc).1 q1)
        · exact absurd q2 ((b3 hc).2 q1)
      · exact f2 hc
  · rintro rfl
    by_cases hc : Exactly.Correctable tg t k
    · by_cases e1 : tag₀ ∈ nominal ∧ l ∈ c.lemmatizer.adjs
      · rw [(f1 hc).1 e1.1 e1.2]
        exact .adjective hl a4 hc e1.1 e1.2
      · by_cases e2 : tag₀ = .ADJ ∧ l ∈ c.nouns
        · rw [(f1 hc).2 e2.1 e2.2]
          exact .noun hl (by rw [a4, e2.1]) hc e2.2
        · have : (h.node r).tag = tag₀ := by
            rcases a9 with a9 | ⟨-, -, ⟨q1, q2, -⟩ | ⟨q1, q2, -⟩⟩
            · exact a9
            · exact absurd ⟨q1, q2⟩ e1
            · exact absurd ⟨q1, q2⟩ e2
          rw [this]
          exact .same hl a4 fun _ => ⟨fun q1 q2 => e1 ⟨q1, q2⟩, fun q1 q2 => e2 ⟨q1, q2⟩⟩
    · rw [f2 hc]
      exact .same hl a4 fun k => absurd k hc

theorem Linked.nominal_iff {k : Nat} {r : Ref} (hk : At t nodes pos k r) :
    Exactly.AsNominal c tokens tg t k ↔ (h.node r).tag ∈ nominal := by
  constructor
  · rintro ⟨tag, h1, h2⟩
    rw [(L.taken_iff T hk).mp h2]
    exact h1
  · intro h1
    exact ⟨_, h1, (L.taken_iff T hk).mpr rfl⟩

/-! ### Words -/

theorem Linked.part_iff {x p : Nat} {rx rp : Ref} (hx : At t nodes pos x rx) (hp : At t nodes pos p rp) :
    Compound h nt nodes rx rp ↔ Exactly.PartOf c tokens tg t x p := by
  constructor
  · intro C
    exact ⟨(L.parent_iff hp hx).mp C.arc, (L.order hx.word hp.word hx.pos hp.pos).mp C.before, (L.unmarked hx.pos).mpr C.noMark,
      (L.nominal_iff T hx).mpr C.tagC, (L.nominal_iff T hp).mpr C.tagP⟩
  · rintro ⟨h1, h2, h3, h4, h5⟩
    exact ⟨hx.mem, (L.nominal_iff T hx).mp h4, (L.nominal_iff T hp).mp h5, (L.parent_iff hp hx).mpr h1, (L.unmarked hx.pos).mp h3,
      (L.order hx.word hp.word hx.pos hp.pos).mpr h2⟩

theorem Linked.partRefs {x p : Nat} (hp : Exactly.PartOf c tokens tg t x p) : ∃ rp rx, At t nodes pos p rp ∧ At t nodes pos x rx :=
  L.ends T hp.1 (by decide)

theorem Linked.compoundRefs {rx rp : Ref} (C : Compound h nt nodes rx rp) : ∃ p x, At t nodes pos p rp ∧ At t nodes pos x rx := by
  obtain ⟨x, hx⟩ := L.at_mem T C.mem
  obtain ⟨p, hp, -⟩ := L.up T C.arc hx.pos (by decide)
  exact ⟨p, x, hp, hx⟩

theorem Linked.parts_iff {x p : Nat} {rx rp : Ref} (hx : At t nodes pos x rx) (hp : At t nodes pos p rp) :
    (rx = rp ∨ Relation.TransGen (Compound h nt nodes) rx rp) ↔ Relation.ReflTransGen (Exactly.PartOf c tokens tg t) x p := by
  constructor
  · rintro (e | e)
    · subst e
      rw [L.inj hx.pos hp.pos]
    · induction e using Relation.TransGen.head_induction_on generalizing x with
      | single C => exact .single ((L.part_iff T hx hp).mp C)
      | head C _ ih =>
        obtain ⟨y, _, hy, -⟩ := L.compoundRefs T C
        exact .head ((L.part_iff T hx hy).mp C) (ih hy)
  · intro e
    induction e using Relation.ReflTransGen.head_induction_on generalizing rx with
    | refl => exact Or.inl (L.fn hx.pos hp.pos)
    | head C _ ih =>
      obtain ⟨ry, _, hy, -⟩ := L.partRefs T C
      have C' := (L.part_iff T hx hy).mpr C
      rcases ih hy with e | e
      · rw [e] at C'; exact Or.inr (.single C')
      · exact Or.inr (.head C' e)

theorem Linked.partsRef {x p : Nat} {rp : Ref} (hp : At t nodes pos p rp)
    (e : Relation.ReflTransGen (Exactly.PartOf c tokens tg t) x p) : ∃ rx, At t nodes pos x rx := by
  induction e using Relation.ReflTransGen.head_induction_on with
  | refl => exact ⟨rp, hp⟩
  | head C _ _ =>
    obtain ⟨_, rx, -, hx⟩ := L.partRefs T C
    exact ⟨rx, hx⟩

theorem Linked.top_iff {k : Nat} {r : Ref} (hk : At t nodes pos k r) :
    ((∃ x, Compound h nt nodes x r) ∧ ∀ p, ¬ Compound h nt nodes r p) ↔
      (∃ x, Exactly.PartOf c tokens tg t x k) ∧ ∀ p, ¬ Exactly.PartOf c tokens tg t k p := by
  constructor
  · rintro ⟨⟨x, C⟩, hn⟩
    obtain ⟨_, y, -, hy⟩ := L.compoundRefs T C
    refine ⟨⟨y, (L.part_iff T hy hk).mp C⟩, fun p hp => ?_⟩
    obtain ⟨rp, _, hp', -⟩ := L.partRefs T hp
    exact hn rp ((L.part_iff T hk hp').mpr hp)
  · rintro ⟨⟨x, C⟩, hn⟩
    obtain ⟨_, y, -, hy⟩ := L.partRefs T C
    refine ⟨⟨y, (L.part_iff T hy hk).mpr C⟩, fun p hp => ?_⟩
    obtain ⟨rp, _, hp', -⟩ := L.compoundRefs T hp
    exact hn rp ((L.part_iff T hk hp').mp hp)

omit L T in
theorem forall₂_lemmas {is : List Nat} {as bs : List Str} (ha : List.Forall₂ (LemmaOf c tokens tg) is as)
    (hb : List.Forall₂ (LemmaOf c tokens tg) is bs) : as = bs := by
  induction ha generalizing bs with
  | nil => cases hb; rfl
  | cons a _ ih =>
    cases hb with
    | cons b hb => rw [LemmaOf_unique a b, ih hb]

theorem Linked.compounds_iff {k : Nat} {r : Ref} (hk : At t nodes pos k r) {w : Str} :
    (h.node r).chunk = some w ↔ ck = true ∧ Exactly.Compounds c tokens tg t k w := by
  cases hck : ck with
  | false => rw [L.unchunked hck]; simp
  | true =>
    obtain ⟨c1, c2⟩ := L.chunk hck r hk.mem
    have top := L.top_iff T hk
    simp only [true_and]
    by_cases hx : (∃ x, Compound h nt nodes x r) ∧ ∀ p, ¬ Compound h nt nodes r p
    · obtain ⟨ns, n1, n2⟩ := c1 hx.1 hx.2
      obtain ⟨is, i1, i2, i3⟩ := chunk_tokens L T hk.mem n1
      have i2' : ∀ j, j ∈ is ↔ Relation.ReflTransGen (Exactly.PartOf c tokens tg t) j k := by
        intro j
        rw [i2]
        constructor
        · rintro ⟨n, hn, hj⟩
          exact (L.parts_iff T hj hk).mp ((n1.mem n).mp hn)
        · intro hj
          obtain ⟨n, hn⟩ := L.partsRef T hk hj
          exact ⟨n, (n1.mem n).mpr ((L.parts_iff T hn hk).mpr hj), hn⟩
      rw [n2, join_eq_intercalate]
      constructor
      · intro e
        exact ⟨(top.mp hx).1, (top.mp hx).2, is, _, i1, i2', i3, (Option.some.inj e).symm⟩
      · rintro ⟨-, -, js, ls, j1, j2, j3, rfl⟩
        have e : js = is := by
          refine List.Perm.eq_of_pairwise (le := (· < ·)) (fun a b _ _ h1 h2 => absurd h1 (by omega)) j1 i1 ?_
          rw [List.perm_ext_iff_of_nodup (j1.imp fun h => Nat.ne_of_lt h) (i1.imp fun h => Nat.ne_of_lt h)]
          intro a
          rw [j2, i2']
        subst e
        rw [forall₂_lemmas j3 i3]
    · have hx1 : (∀ x, ¬ Compound h nt nodes x r) ∨ ∃ p, Compound h nt nodes r p := by
        by_cases h0 : ∃ x, Compound h nt nodes x r
        · exact Or.inr (by by_contra h1; exact hx ⟨h0, fun p hp => h1 ⟨p, hp⟩⟩)
        · exact Or.inl fun x hx => h0 ⟨x, hx⟩
      rw [c2 hx1]
      constructor
      · intro e; cases e
      · rintro ⟨e1, e2, -⟩
        exact absurd (top.mpr ⟨e1, e2⟩) hx

theorem Linked.chunk_ne {k : Nat} {r : Ref} (hk : At t nodes pos k r) {w : Str} (hw : (h.node r).chunk = some w) : w ≠ [] := by
  obtain ⟨-, ⟨x, hx⟩, -, is, ls, i1, i2, i3, rfl⟩ := (L.compounds_iff T hk).mp hw
  have m1 : x ∈ is := (i2 x).mpr (.single hx)
  have m2 : k ∈ is := (i2 k).mpr .refl
  have hne : x ≠ k := Nat.ne_of_lt hx.2.1
  cases i3 with
  | nil => cases m1
  | cons _ i3 =>
    cases i3 with
    | nil =>
      rw [List.mem_singleton] at m1 m2
      exact absurd (m1.trans m2.symm) hne
    | cons _ _ => simp [List.intercalate]

theorem Linked.written_iff {k : Nat} {r : Ref} (hk : At t nodes pos k r) {tag : Tag} {w : Str} :
    Exactly.Written ck c tokens tg t k tag w ↔ (h.node r).tag = tag ∧ (h.node r).canon = w := by
  obtain ⟨r', s, tag₀, l, x, k1, k2, k3, k4, k5, k6, k7, k8, k9, k10, k11⟩ := L.word hk.word
  cases L.fn k1 hk.pos
  have hl : LemmaOf c tokens tg k l := ⟨s, tag₀, x, k3, k4, k5⟩
  have cmp := fun w => L.compounds_iff T hk (w := w)
  constructor
  · intro H
    cases H with
    | particles b1 b2 b3 b4 =>
      have e := (L.taken_iff T hk).mp b1
      cases LemmaOf_unique b3 hl
      cases PartWords_unique b4 k7
      refine ⟨e, ?_⟩
      rw [k10, e]
      rcases b2 with rfl | rfl <;> rfl
    | pronoun b1 b2 =>
      have e := (L.taken_iff T hk).mp b1
      cases LemmaOf_unique b2 hl
      refine ⟨e, ?_⟩
      rw [k10, e]
      rfl
    | compound b1 b2 b3 =>
      have e := (L.taken_iff T hk).mp b1
      refine ⟨e, ?_⟩
      have e' := (cmp w).mpr ⟨b2, b3⟩
      have := L.chunk_ne T hk e'
      rw [k10, e, e']
      cases w with
      | nil => exact absurd rfl this
      | cons a w => rfl
    | noun b1 b2 b3 =>
      have e := (L.taken_iff T hk).mp b1
      cases LemmaOf_unique b3 hl
      refine ⟨e, ?_⟩
      rw [k10, e]
      cases e' : (h.node r).chunk with
      | none => rfl
      | some u =>
        obtain ⟨q1, q2⟩ := (cmp u).mp e'
        exact absurd q2 (b2 q1 u)
    | other b1 b2 b3 =>
      have e := (L.taken_iff T hk).mp b1
      cases LemmaOf_unique b3 hl
      refine ⟨e, ?_⟩
      rw [k10, e]
      cases tag <;> first | rfl | exact absurd b2 (by decide)
  · rintro ⟨rfl, rfl⟩
    have b1 := (L.taken_iff T hk).mpr rfl
    rw [k10]
    cases e : (h.node r).tag <;> rw [e] at b1 <;> dsimp only [Props.canonOf] <;> first
      | exact .particles b1 (by decide) hl k7
      | exact .pronoun b1 hl
      | exact .other b1 (by decide) hl
      | skip
    cases e' : (h.node r).chunk with
    | none =>
      refine .noun b1 (fun q1 u q2 => ?_) hl
      have := (cmp u).mpr ⟨q1, q2⟩
      rw [e'] at this
      cases this
    | some u =>
      obtain ⟨q1, q2⟩ := (cmp u).mp e'
      cases u with
      | nil => exact absurd rfl (L.chunk_ne T hk e')
      | cons a u => exact .compound b1 q1 q2

end
end Model
