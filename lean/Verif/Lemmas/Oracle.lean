import Verif.Model.LabelledData
import Verif.Lemmas.Parser
import Mathlib.Order.WellFounded
import Mathlib.Data.Fintype.Order

/-! Lemmas on the gold trees and the transition oracle. -/

namespace Model
open Py Spec

theorem mem_goldArcs {tuples : List TokenTuple} {d : Dep} {p c : Nat} :
    (d, p, c) ∈ goldArcs tuples ↔ GoldArc tuples d p c := by
  unfold goldArcs GoldArc
  simp only [List.mem_filterMap, List.mem_zipIdx_iff_getElem?]
  constructor
  · rintro ⟨⟨⟨tag, d', q⟩, i⟩, h1, h2⟩
    simp only at h1 h2
    split at h2
    · rename_i hc
      cases h2
      refine ⟨⟨tag, ?_⟩, hc.1, hc.2.1⟩
      have : ((q.toNat : Nat) : Int) = q := Int.toNat_of_nonneg (by omega)
      rw [this, h1]
    · cases h2
  · rintro ⟨⟨tag, h1⟩, h2, h3⟩
    refine ⟨((tag, d, (p : Int)), c), h1, ?_⟩
    simp only
    rw [if_pos ⟨h2, h3, by omega⟩]
    simp

theorem goldArcs_single (tuples : List TokenTuple) : SingleHead (goldArcs tuples) := by
  unfold SingleHead goldArcs
  have key : ∀ (l : List TokenTuple) (k : Nat),
      (((l.zipIdx k).filterMap fun t =>
        if t.1.2.1 ≠ .ROOT ∧ t.1.2.1 ≠ .NODEP ∧ t.1.2.2 > -1 then some (t.1.2.1, t.1.2.2.toNat, t.2) else none).map
          fun a => a.2.2).Pairwise (· < ·) ∧
      ∀ x ∈ (((l.zipIdx k).filterMap fun t =>
        if t.1.2.1 ≠ .ROOT ∧ t.1.2.1 ≠ .NODEP ∧ t.1.2.2 > -1 then some (t.1.2.1, t.1.2.2.toNat, t.2) else none).map
          fun a => a.2.2), k ≤ x := by
    intro l
    induction l with
    | nil => intro k; simp
    | cons t l ih =>
      intro k
      obtain ⟨h1, h2⟩ := ih (k + 1)
      rw [List.zipIdx_cons]
      by_cases hc : t.2.1 ≠ .ROOT ∧ t.2.1 ≠ .NODEP ∧ t.2.2 > -1
      · rw [List.filterMap_cons_some (by simp only; rw [if_pos hc])]
        simp only [List.map_cons, List.pairwise_cons, List.mem_cons]
        refine ⟨⟨fun x hx => ?_, h1⟩, ?_⟩
        · have := h2 x hx; omega
        · rintro x (rfl | hx)
          · exact Nat.le_refl _
          · have := h2 x hx; omega
      · rw [List.filterMap_cons_none (by simp only; rw [if_neg hc])]
        exact ⟨h1, fun x hx => by have := h2 x hx; omega⟩
  exact ((key tuples 0).1).imp (fun h => Nat.ne_of_lt h)

theorem _root_.Spec.GoldArc.unique {tuples : List TokenTuple} {d d' : Dep} {p p' c : Nat} (h : GoldArc tuples d p c)
    (h' : GoldArc tuples d' p' c) : d = d' ∧ p = p' := by
  obtain ⟨⟨_, h⟩, _⟩ := h
  obtain ⟨⟨_, h'⟩, _⟩ := h'
  rw [h] at h'
  simp only [Option.some.injEq, Prod.mk.injEq, Int.natCast_inj] at h'
  exact ⟨h'.2.1, h'.2.2⟩

theorem _root_.Spec.GoldArc.tok {tuples : List TokenTuple} {r : Nat} (H : ProjectiveGold tuples r) {d : Dep} {p c : Nat}
    (h : GoldArc tuples d p c) : GoldTok tuples p ∧ GoldTok tuples c := by
  obtain ⟨⟨tag, h1⟩, h2, h3⟩ := h
  obtain ⟨q, e, hq⟩ := H.headed c tag d p h1 h2 h3
  rw [Int.natCast_inj] at e
  subst e
  exact ⟨hq, tag, d, p, h1, h3⟩

theorem _root_.Spec.GoldTok.lt {tuples : List TokenTuple} {i : Nat} (h : GoldTok tuples i) : i < tuples.length := by
  obtain ⟨_, _, _, h, _⟩ := h
  exact (List.getElem?_eq_some_iff.mp h).1

/-- Parent relation of the gold tree. -/
abbrev GPar (tuples : List TokenTuple) (p c : Nat) : Prop := ∃ d, GoldArc tuples d p c

/-- A token strictly under an arc descends from one of the ends of the arc. -/
theorem _root_.Spec.ProjectiveGold.exit {tuples : List TokenTuple} {r : Nat} (H : ProjectiveGold tuples r) {d : Dep} {u v : Nat}
    (huv : GoldArc tuples d u v) : ∀ x, GoldTok tuples x → Covers (u, v) x →
      Relation.TransGen (GPar tuples) u x ∨ Relation.TransGen (GPar tuples) v x := by
  have wf : WellFounded (fun a b : Fin tuples.length => Relation.TransGen (GPar tuples) a.1 b.1) := by
    haveI : IsTrans (Fin tuples.length) (fun a b => Relation.TransGen (GPar tuples) a.1 b.1) :=
      ⟨fun _ _ _ h1 h2 => h1.trans h2⟩
    haveI : Std.Irrefl (fun a b : Fin tuples.length => Relation.TransGen (GPar tuples) a.1 b.1) :=
      ⟨fun a => H.acyclic a.1⟩
    exact Finite.wellFounded_of_trans_of_irrefl _
  have main : ∀ x : Fin tuples.length, GoldTok tuples x.1 → Covers (u, v) x.1 →
      Relation.TransGen (GPar tuples) u x.1 ∨ Relation.TransGen (GPar tuples) v x.1 := by
    intro x
    induction x using wf.induction with
    | _ x ih =>
      intro hx hc
      obtain ⟨tag, e, p, h1, h2⟩ := hx
      by_cases he : e = .ROOT
      · subst he
        have := H.oneRoot x.1 tag p h1
        exact absurd (this ▸ hc) (H.rootFree _ _ _ huv)
      · obtain ⟨q, rfl, hq⟩ := H.headed x.1 tag e p h1 he h2
        have hqx : GoldArc tuples e q x.1 := ⟨⟨tag, h1⟩, he, h2⟩
        have hn := H.noncross _ _ _ _ _ _ huv hqx
        have hstep : Relation.TransGen (GPar tuples) q x.1 := Relation.TransGen.single ⟨e, hqx⟩
        by_cases e1 : q = u
        · subst e1; exact Or.inl hstep
        by_cases e2 : q = v
        · subst e2; exact Or.inr hstep
        have hcq : Covers (u, v) q := by
          unfold Covers Cross lo hi at *
          simp only at *
          omega
        rcases ih ⟨q, hq.lt⟩ hstep hq hcq with h | h
        · exact Or.inl (h.trans hstep)
        · exact Or.inr (h.trans hstep)
  intro x hx
  exact main ⟨x, hx.lt⟩ hx

/-- Invariant of the oracle: which gold arcs are made and which are still possible. -/
structure OInv (tuples : List TokenTuple) (stack buffer : List Nat) (arcs : List Arc) : Prop where
  gold : ∀ a ∈ arcs, GoldArc tuples a.1 a.2.1 a.2.2
  done : ∀ d p c, GoldArc tuples d p c → (d, p, c) ∉ arcs → p ∈ buffer ∨ c ∈ buffer
  pend : ∀ d p c, GoldArc tuples d p c → (d, p, c) ∉ arcs →
    (p ∈ stack ∨ p ∈ buffer) ∧ (c ∈ stack ∨ c ∈ buffer)
  toks : ∀ x, x ∈ stack ∨ x ∈ buffer → GoldTok tuples x

section
variable {tuples : List TokenTuple} {r t b : Nat} {ts bs : List Nat} {arcs : List Arc} {deps : List Dep}
  {dead stack : List Nat}

theorem OInv.left (H : ProjectiveGold tuples r) (hc : CoreInv deps dead (t :: ts) (b :: bs) arcs)
    (h : OInv tuples (t :: ts) (b :: bs) arcs) {d : Dep} (hd : GoldArc tuples d b t) :
    OInv tuples ts (b :: bs) (arcs ++ [(d, b, t)]) where
  gold := by
    intro a ha
    rcases List.mem_append.mp ha with ha | ha
    · exact h.gold a ha
    · rw [List.mem_singleton.mp ha]; exact hd
  done := by
    intro e p c hg hn
    exact h.done e p c hg fun hm => hn (List.mem_append_left _ hm)
  pend := by
    intro e p c hg hn
    have hnA : (e, p, c) ∉ arcs := fun hm => hn (List.mem_append_left _ hm)
    obtain ⟨h1, h2⟩ := h.pend e p c hg hnA
    have hct : c ≠ t := by
      rintro rfl
      obtain ⟨rfl, rfl⟩ := hg.unique hd
      exact hn (by simp)
    have htb := hc.top_lt
    have hpt : p ≠ t := by
      rintro rfl
      have hpb : p ∉ b :: bs := fun hm => by
        have := hc.lt p (by simp) p hm
        omega
      rcases h.done e p c hg hnA with hm | hm
      · exact hpb hm
      · have hcb : c ≠ b := by
          rintro rfl
          exact H.acyclic c ((Relation.TransGen.single ⟨d, hd⟩).tail ⟨e, hg⟩)
        have hlt : b < c := by
          rcases List.mem_cons.mp hm with rfl | hm
          · exact absurd rfl hcb
          · exact (List.pairwise_cons.mp hc.bufAsc).1 c hm
        rcases H.exit hg b (h.toks b (by simp)) (by unfold Covers lo hi; simp only; omega) with hx | hx
        · exact H.acyclic p (hx.tail ⟨d, hd⟩)
        · exact H.acyclic c ((hx.tail ⟨d, hd⟩).tail ⟨e, hg⟩)
    simp only [List.mem_cons] at h1 h2 ⊢
    tauto
  toks := by
    intro x hx
    apply h.toks
    simp only [List.mem_cons] at hx ⊢
    tauto

theorem OInv.right (H : ProjectiveGold tuples r) (hc : CoreInv deps dead (t :: ts) (b :: bs) arcs)
    (h : OInv tuples (t :: ts) (b :: bs) arcs) {d : Dep} (hd : GoldArc tuples d t b) :
    OInv tuples (b :: t :: ts) bs (arcs ++ [(d, t, b)]) where
  gold := by
    intro a ha
    rcases List.mem_append.mp ha with ha | ha
    · exact h.gold a ha
    · rw [List.mem_singleton.mp ha]; exact hd
  done := by
    intro e p c hg hn
    have hnA : (e, p, c) ∉ arcs := fun hm => hn (List.mem_append_left _ hm)
    obtain ⟨h1, h2⟩ := h.pend e p c hg hnA
    have hd0 := h.done e p c hg hnA
    by_contra hcon
    rw [not_or] at hcon
    have hcb : c ≠ b := by
      rintro rfl
      obtain ⟨rfl, rfl⟩ := hg.unique hd
      exact hn (by simp)
    have hpb : p = b := by
      simp only [List.mem_cons] at hd0
      tauto
    subst hpb
    have htb := hc.top_lt
    simp only [List.mem_cons] at h2
    rcases h2 with (rfl | h2) | h2
    · exact H.acyclic p ((Relation.TransGen.single ⟨e, hg⟩).tail ⟨d, hd⟩)
    · have hlt : c < t := (List.pairwise_cons.mp hc.stackDesc).1 c h2
      rcases H.exit hg t (h.toks t (by simp)) (by unfold Covers lo hi; simp only; omega) with hx | hx
      · exact H.acyclic t ((Relation.TransGen.single ⟨d, hd⟩).trans hx)
      · exact H.acyclic t (((Relation.TransGen.single ⟨d, hd⟩).tail ⟨e, hg⟩).trans hx)
    · tauto
  pend := by
    intro e p c hg hn
    have hnA : (e, p, c) ∉ arcs := fun hm => hn (List.mem_append_left _ hm)
    obtain ⟨h1, h2⟩ := h.pend e p c hg hnA
    simp only [List.mem_cons] at h1 h2 ⊢
    tauto
  toks := by
    intro x hx
    apply h.toks
    simp only [List.mem_cons] at hx ⊢
    tauto

/-- Some gold arc joins `x` and `y`. -/
def Edge (tuples : List TokenTuple) (x y : Nat) : Prop := ∃ d, GoldArc tuples d x y ∨ GoldArc tuples d y x

theorem OInv.reduce (H : ProjectiveGold tuples r) (hc : CoreInv deps dead (t :: ts) (b :: bs) arcs)
    (h : OInv tuples (t :: ts) (b :: bs) arcs) (hn : ¬ Edge tuples t b) {x : Nat} (hx : Edge tuples x b) (hxt : x < t) :
    OInv tuples ts (b :: bs) arcs where
  gold := h.gold
  done := h.done
  pend := by
    intro e p c hg hnA
    obtain ⟨h1, h2⟩ := h.pend e p c hg hnA
    have htb := hc.top_lt
    have htn : t ∉ b :: bs := fun hm => by
      have := hc.lt t (by simp) t hm
      omega
    have key : ∀ y, y ∈ b :: bs → Edge tuples t y → False := by
      intro y hy ⟨d, he⟩
      have hyb : y ≠ b := by
        rintro rfl
        exact hn ⟨d, he⟩
      have hlt : b < y := by
        rcases List.mem_cons.mp hy with rfl | hm
        · exact absurd rfl hyb
        · exact (List.pairwise_cons.mp hc.bufAsc).1 y hm
      obtain ⟨d', he'⟩ := hx
      rcases he with he | he <;> rcases he' with he' | he'
      all_goals
        apply H.noncross _ _ _ _ _ _ he he'
        unfold Cross lo hi
        simp only
        omega
    have hpt : p ≠ t := by
      rintro rfl
      rcases h.done e p c hg hnA with hm | hm
      · exact htn hm
      · exact key c hm ⟨e, Or.inl hg⟩
    have hct : c ≠ t := by
      rintro rfl
      rcases h.done e p c hg hnA with hm | hm
      · exact key p hm ⟨e, Or.inr hg⟩
      · exact htn hm
    simp only [List.mem_cons] at h1 h2 ⊢
    tauto
  toks := by
    intro x hx
    apply h.toks
    simp only [List.mem_cons] at hx ⊢
    tauto

theorem OInv.shift (H : ProjectiveGold tuples r) (h : OInv tuples stack (b :: bs) arcs)
    (hn : ∀ x ∈ stack, ¬ Edge tuples x b) : OInv tuples (b :: stack) bs arcs where
  gold := h.gold
  done := by
    intro e p c hg hnA
    obtain ⟨h1, h2⟩ := h.pend e p c hg hnA
    have hd0 := h.done e p c hg hnA
    have hne : p ≠ c := by
      rintro rfl
      exact H.acyclic p (Relation.TransGen.single ⟨e, hg⟩)
    simp only [List.mem_cons] at h1 h2 hd0
    by_contra hcon
    rw [not_or] at hcon
    rcases hd0 with (rfl | hd0) | (rfl | hd0)
    · rcases h2 with h2 | h2 | h2
      · exact hn c h2 ⟨e, Or.inr hg⟩
      · exact hne h2.symm
      · exact hcon.2 h2
    · exact hcon.1 hd0
    · rcases h1 with h1 | h1 | h1
      · exact hn p h1 ⟨e, Or.inl hg⟩
      · exact hne h1
      · exact hcon.1 h1
    · exact hcon.2 hd0
  pend := by
    intro e p c hg hnA
    obtain ⟨h1, h2⟩ := h.pend e p c hg hnA
    simp only [List.mem_cons] at h1 h2 ⊢
    tauto
  toks := by
    intro x hx
    apply h.toks
    simp only [List.mem_cons] at hx ⊢
    tauto

end

/-! ### The queries of the oracle -/

section
variable {tuples : List TokenTuple} {r : Nat} {s : LabelledSentence} {tree : Tree Dep Nat}

theorem isParent_iff (ht : buildTree r (goldArcs tuples) = .ok tree) (hs : s.tree = some tree) (p c : Nat) :
    ∃ b, s.isParent p c = .ok b ∧ (b = true ↔ GPar tuples p c) := by
  have inv := buildTree_inv ht
  simp only [LabelledSentence.isParent, LabelledSentence.getTree, hs, bind, Except.bind, pure, Except.pure, inv.parent]
  cases hl : lastParent (goldArcs tuples) c with
  | none =>
    refine ⟨false, rfl, by simp, ?_⟩
    rintro ⟨d, hd⟩
    rw [lastParent_eq_none] at hl
    exact absurd rfl (hl _ (mem_goldArcs.mpr hd))
  | some dp =>
    obtain ⟨d, q⟩ := dp
    have hm := mem_goldArcs.mp (lastParent_mem hl)
    refine ⟨decide (q = p), rfl, ?_⟩
    rw [decide_eq_true_eq]
    constructor
    · rintro rfl; exact ⟨d, hm⟩
    · rintro ⟨d', hd'⟩; exact (hm.unique hd').2

theorem hasArcBefore_iff (ht : buildTree r (goldArcs tuples) = .ok tree) (hs : s.tree = some tree) (x m : Nat) :
    ∃ b, s.hasArcBefore x m = .ok b ∧ (b = true ↔ ∃ y, y < m ∧ Edge tuples y x) := by
  have inv := buildTree_inv ht
  simp only [LabelledSentence.hasArcBefore, LabelledSentence.getTree, hs, bind, Except.bind, pure, Except.pure,
    inv.parent]
  refine ⟨_, rfl, ?_⟩
  simp only [Bool.or_eq_true, List.any_eq_true, decide_eq_true_eq, Prod.exists, inv.mem_children, mem_goldArcs, Edge]
  constructor
  · rintro (h | ⟨d, c, h1, h2⟩)
    · cases hl : lastParent (goldArcs tuples) x with
      | none => rw [hl] at h; cases h
      | some dp =>
        obtain ⟨d, q⟩ := dp
        rw [hl] at h
        exact ⟨q, by simpa using h, d, Or.inl (mem_goldArcs.mp (lastParent_mem hl))⟩
    · exact ⟨c, h2, d, Or.inr h1⟩
  · rintro ⟨y, hy, d, h | h⟩
    · left
      rw [lastParent_of_single (goldArcs_single tuples) (mem_goldArcs.mpr h)]
      simpa using hy
    · exact Or.inr ⟨d, y, h, hy⟩

/-- The oracle always terminates. -/
theorem oracleLoop_total (ht : buildTree r (goldArcs tuples) = .ok tree) (hs : s.tree = some tree) :
    ∀ (fuel : Nat) (stack buffer : List Nat) (acc : List (Nat × Nat × Trans)),
      2 * buffer.length + stack.length ≤ fuel → ∃ ts, s.oracleLoop fuel stack buffer acc = .ok (some ts) := by
  intro fuel
  induction fuel with
  | zero =>
    intro stack buffer acc h
    cases buffer with
    | nil => exact ⟨acc, by simp [LabelledSentence.oracleLoop]⟩
    | cons b bs => simp at h
  | succ fuel ih =>
    intro stack buffer acc h
    cases buffer with
    | nil => exact ⟨acc, by simp [LabelledSentence.oracleLoop]⟩
    | cons b bs =>
      cases stack with
      | nil =>
        unfold LabelledSentence.oracleLoop
        exact ih [b] bs acc (by simp only [List.length_cons, List.length_nil] at h ⊢; omega)
      | cons t ts =>
        simp only [List.length_cons] at h
        obtain ⟨b1, e1, _⟩ := isParent_iff ht hs b t
        obtain ⟨b2, e2, _⟩ := isParent_iff ht hs t b
        obtain ⟨b3, e3, _⟩ := hasArcBefore_iff ht hs b t
        unfold LabelledSentence.oracleLoop
        simp only [e1, e2, e3, bind, Except.bind]
        cases b1
        · cases b2
          · cases b3
            · exact ih _ _ _ (by simp only [List.length_cons]; omega)
            · exact ih _ _ _ (by simp only [List.length_cons]; omega)
          · exact ih _ _ _ (by simp only [List.length_cons]; omega)
        · exact ih _ _ _ (by simp only [List.length_cons]; omega)

/-- Registering `LEFT` or `REDUCE` seen from the oracle: a step of the parser. -/
theorem oracle_run {X : Type} (H : ProjectiveGold tuples r) (ht : buildTree r (goldArcs tuples) = .ok tree)
    (hs : s.tree = some tree) :
    ∀ (fuel : Nat) (acc : List (Nat × Nat × Trans)) (p : Parse X), ParseInv p → p.stack ≠ [] →
      p.deps = tuples.map (fun t => t.2.1) → OInv tuples p.stack p.buffer p.arcs → p.work ≤ fuel →
      ∃ trs p', s.oracleLoop fuel p.stack p.buffer acc = .ok (some (acc ++ trs)) ∧
        runTrans p (trs.map fun x => x.2.2) = .ok p' ∧ p'.complete = true ∧ p'.deps = p.deps ∧ ParseInv p' ∧
        OInv tuples p'.stack p'.buffer p'.arcs := by
  intro fuel
  induction fuel using Nat.strong_induction_on with
  | _ fuel ih =>
    intro acc p hp hne hdeps ho hw
    obtain ⟨mats, tags, deps, stack, buffer, arcs⟩ := p
    simp only at hdeps ho hne
    obtain ⟨t, ts, rfl⟩ := List.exists_cons_of_ne_nil hne
    cases buffer with
    | nil =>
      refine ⟨[], _, ?_, rfl, rfl, rfl, hp, ho⟩
      cases fuel <;> simp [LabelledSentence.oracleLoop]
    | cons b bs =>
      obtain ⟨dead, hc⟩ := hp.core
      simp only at hc
      simp only [Parse.work, List.length_cons] at hw
      obtain ⟨fuel, rfl⟩ : ∃ f, fuel = f + 1 := ⟨fuel - 1, by omega⟩
      have hnc : (Parse.mk mats tags deps (t :: ts) (b :: bs) arcs).complete = false := rfl
      have hgd : ∀ {d p c}, GoldArc tuples d p c → deps[c]? = some d ∧ (if d = .ROOT then Dep.SPLIT else d) = d := by
        rintro d p c ⟨⟨tag, h1⟩, h2, _⟩
        rw [hdeps, List.getElem?_map, h1]
        exact ⟨rfl, by rw [if_neg h2]⟩
      -- one transition `tr` leading to `q`, after which the oracle continues as the parser does
      have go : ∀ (tr : Trans) (q : Parse X), (Parse.mk mats tags deps (t :: ts) (b :: bs) arcs).registerTransition tr = .ok q →
          q.stack ≠ [] → OInv tuples q.stack q.buffer q.arcs →
          (∃ f, f < fuel + 1 ∧ q.work ≤ f ∧ s.oracleLoop (fuel + 1) (t :: ts) (b :: bs) acc =
            s.oracleLoop f q.stack q.buffer (acc ++ [(t, b, tr)])) →
          ∃ trs p', s.oracleLoop (fuel + 1) (t :: ts) (b :: bs) acc = .ok (some (acc ++ trs)) ∧
            runTrans (Parse.mk mats tags deps (t :: ts) (b :: bs) arcs) (trs.map fun x => x.2.2) = .ok p' ∧
            p'.complete = true ∧ p'.deps = deps ∧ ParseInv p' ∧ OInv tuples p'.stack p'.buffer p'.arcs := by
        rintro tr q hq hqs hqo ⟨f, hf1, hf2, hf3⟩
        obtain ⟨q', e1, e2, _, e4, _⟩ := hp.step (by simp) tr
        rw [hq] at e1
        cases e1
        simp only at e4
        obtain ⟨trs, p', g1, g2, g3, g4, g5, g6⟩ := ih f hf1 (acc ++ [(t, b, tr)]) q e2 hqs (by rw [e4, hdeps]) hqo hf2
        refine ⟨(t, b, tr) :: trs, p', ?_, ?_, g3, by rw [g4, e4], g5, g6⟩
        · rw [hf3, g1]
          simp
        · simp only [List.map_cons, runTrans, hnc, Bool.false_eq_true, if_false, hq, bind, Except.bind]
          exact g2
      obtain ⟨b1, e1, f1⟩ := isParent_iff ht hs b t
      obtain ⟨b2, e2, f2⟩ := isParent_iff ht hs t b
      obtain ⟨b3, e3, f3⟩ := hasArcBefore_iff ht hs b t
      have hshiftInit : ∀ {arcs'}, OInv tuples [] (b :: bs) arcs' → OInv tuples [b] bs arcs' := fun h =>
        h.shift H (by simp)
      cases b1 with
      | true =>
        obtain ⟨d, hd⟩ := f1.mp rfl
        have hl := ho.left H hc hd
        obtain ⟨hd1, hd2⟩ := hgd hd
        have hpd : (Parse.mk mats tags deps (t :: ts) (b :: bs) arcs).pdep t = .ok d := by
          rw [pdep_ok hd1, hd2]
        have hreg : (Parse.mk mats tags deps (t :: ts) (b :: bs) arcs).registerTransition .LEFT =
            if ts = [] then .ok ⟨mats, tags, deps, [b], bs, arcs ++ [(d, b, t)]⟩
            else .ok ⟨mats, tags, deps, ts, b :: bs, arcs ++ [(d, b, t)]⟩ := by
          simp only [Parse.registerTransition, Parse.top, Parse.front, hpd, bind, Except.bind, Parse.reduce]
          split
          · rename_i h; subst h; rfl
          · rfl
        by_cases hts : ts = []
        · subst hts
          rw [if_pos rfl] at hreg
          obtain ⟨f', rfl⟩ : ∃ f', fuel = f' + 1 := ⟨fuel - 1, by omega⟩
          refine go .LEFT _ hreg (by simp) (hshiftInit hl) ⟨f', by omega, ?_, ?_⟩
          · simp only [Parse.work, List.length_cons, List.length_nil] at hw ⊢; omega
          · simp only [LabelledSentence.oracleLoop, e1, bind, Except.bind, if_true]
        · rw [if_neg hts] at hreg
          refine go .LEFT _ hreg hts hl ⟨fuel, by omega, ?_, ?_⟩
          · simp only [Parse.work, List.length_cons]; omega
          · simp only [LabelledSentence.oracleLoop, e1, bind, Except.bind, if_true]
      | false =>
        cases b2 with
        | true =>
          obtain ⟨d, hd⟩ := f2.mp rfl
          obtain ⟨hd1, hd2⟩ := hgd hd
          have hpd : (Parse.mk mats tags deps (t :: ts) (b :: bs) arcs).pdep b = .ok d := by
            rw [pdep_ok hd1, hd2]
          have hreg : (Parse.mk mats tags deps (t :: ts) (b :: bs) arcs).registerTransition .RIGHT =
              .ok ⟨mats, tags, deps, b :: t :: ts, bs, arcs ++ [(d, t, b)]⟩ := by
            simp only [Parse.registerTransition, Parse.top, Parse.front, hpd, bind, Except.bind, Parse.shift]
          refine go .RIGHT _ hreg (by simp) (ho.right H hc hd) ⟨fuel, by omega, ?_, ?_⟩
          · simp only [Parse.work, List.length_cons]; omega
          · simp only [LabelledSentence.oracleLoop, e1, e2, bind, Except.bind, if_true, Bool.false_eq_true, if_false]
        | false =>
          have hnoE : ¬ Edge tuples t b := by
            rintro ⟨d, h | h⟩
            · exact absurd (f2.mpr ⟨d, h⟩) (by simp)
            · exact absurd (f1.mpr ⟨d, h⟩) (by simp)
          cases b3 with
          | true =>
            obtain ⟨x, hxt, hx⟩ := f3.mp rfl
            have hl := ho.reduce H hc hnoE hx hxt
            have hreg : (Parse.mk mats tags deps (t :: ts) (b :: bs) arcs).registerTransition .REDUCE =
                if ts = [] then .ok ⟨mats, tags, deps, [b], bs, arcs⟩
                else .ok ⟨mats, tags, deps, ts, b :: bs, arcs⟩ := by
              simp only [Parse.registerTransition, Parse.reduce]
              split
              · rename_i h; subst h; rfl
              · rfl
            by_cases hts : ts = []
            · subst hts
              rw [if_pos rfl] at hreg
              obtain ⟨f', rfl⟩ : ∃ f', fuel = f' + 1 := ⟨fuel - 1, by omega⟩
              refine go .REDUCE _ hreg (by simp) (hshiftInit hl) ⟨f', by omega, ?_, ?_⟩
              · simp only [Parse.work, List.length_cons, List.length_nil] at hw ⊢; omega
              · simp only [LabelledSentence.oracleLoop, e1, e2, e3, bind, Except.bind, if_true, Bool.false_eq_true,
                  if_false]
            · rw [if_neg hts] at hreg
              refine go .REDUCE _ hreg hts hl ⟨fuel, by omega, ?_, ?_⟩
              · simp only [Parse.work, List.length_cons]; omega
              · simp only [LabelledSentence.oracleLoop, e1, e2, e3, bind, Except.bind, if_true, Bool.false_eq_true,
                  if_false]
          | false =>
            have hsh : OInv tuples (b :: t :: ts) bs arcs := by
              apply ho.shift H
              intro x hx he
              rcases List.mem_cons.mp hx with rfl | hx
              · exact hnoE he
              · have : x < t := (List.pairwise_cons.mp hc.stackDesc).1 x hx
                exact absurd (f3.mpr ⟨x, this, he⟩) (by simp)
            have hreg : (Parse.mk mats tags deps (t :: ts) (b :: bs) arcs).registerTransition .SHIFT =
                .ok ⟨mats, tags, deps, b :: t :: ts, bs, arcs⟩ := rfl
            refine go .SHIFT _ hreg (by simp) hsh ⟨fuel, by omega, ?_, ?_⟩
            · simp only [Parse.work, List.length_cons]; omega
            · simp only [LabelledSentence.oracleLoop, e1, e2, e3, bind, Except.bind, Bool.false_eq_true, if_false]

end
end Model
