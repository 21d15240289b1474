import Verif.Lemmas.SameTree
import Verif.Lemmas.Oracle
import Verif.Lemmas.ParserCall

/-! The order in which the parser makes arcs, and the transitions of the oracle replayed by a model that predicts them. -/

namespace Model
open Py Spec

/-- Of two arcs of one head, the later one goes further to the left, or else to the right of the earlier one. -/
def OrdArcs (arcs : List Arc) : Prop :=
  arcs.Pairwise fun a b => a.2.1 = b.2.1 →
    (b.2.2 < b.2.1 → a.2.2 < a.2.1 ∧ b.2.2 < a.2.2) ∧ (b.2.1 < b.2.2 → a.2.2 < b.2.2)

section
variable {deps : List Dep} {dead stack buffer : List Nat} {arcs : List Arc}

theorem CoreInv.ord_left {t b : Nat} {s bs : List Nat} {d : Dep} (h : CoreInv deps dead (t :: s) (b :: bs) arcs)
    (ho : OrdArcs arcs) : OrdArcs (arcs ++ [(d, b, t)]) := by
  unfold OrdArcs
  rw [List.pairwise_append]
  refine ⟨ho, by simp, ?_⟩
  intro a ha x hx
  rw [List.mem_singleton] at hx
  subst hx
  intro e
  simp only at e ⊢
  have htb : t < b := h.top_lt
  have hn := h.nodup
  have hcd : a.2.2 ∈ dead := by
    rcases h.before a ha with hs | ⟨h1, -⟩ | hs
    · exact hs.subset (by simp)
    · exact h1
    · exfalso
      have : a.2.1 ∈ t :: s := hs.subset (by simp)
      rw [e] at this
      rw [List.append_assoc] at hn
      exact (List.nodup_append.mp (List.nodup_append.mp hn).2.1).2.2 b this b (by simp) rfl
  have hcb : a.2.2 < b := h.lt _ (by simp [hcd]) b (by simp)
  refine ⟨fun _ => ⟨by omega, ?_⟩, fun hlt => by omega⟩
  have hcov := h.cover a ha t (by simp)
  have hne : t ≠ a.2.2 := by
    intro e'
    rw [List.append_assoc] at hn
    exact (List.nodup_append.mp hn).2.2 _ hcd t (by simp) e'.symm
  unfold Covers lo hi at hcov
  rw [e] at hcov
  by_contra hcon
  apply hcov
  constructor <;> omega

theorem CoreInv.ord_right {t b : Nat} {s bs : List Nat} {d : Dep} (h : CoreInv deps dead (t :: s) (b :: bs) arcs)
    (ho : OrdArcs arcs) : OrdArcs (arcs ++ [(d, t, b)]) := by
  unfold OrdArcs
  rw [List.pairwise_append]
  refine ⟨ho, by simp, ?_⟩
  intro a ha x hx
  rw [List.mem_singleton] at hx
  subst hx
  intro e
  simp only at e ⊢
  have htb : t < b := h.top_lt
  refine ⟨fun hlt => by omega, fun _ => ?_⟩
  have := (h.before a ha).mem.1
  exact h.lt _ (by simpa using this) b (by simp)

end

variable {X : Type}

theorem shift_arcs {p p' : Parse X} (h : p.shift = .ok p') : p'.arcs = p.arcs := by
  unfold Parse.shift at h
  split at h
  · cases h; rfl
  · cases h

theorem reduce_arcs {p p' : Parse X} (h : p.reduce = .ok p') : p'.arcs = p.arcs := by
  unfold Parse.reduce at h
  split at h
  · cases h
  · simp only at h
    split at h
    · have := shift_arcs h
      exact this
    · cases h; rfl

theorem step_ord {p p' : Parse X} (h : ParseInv p) (hb : p.buffer ≠ []) (ho : OrdArcs p.arcs) {tr : Trans}
    (e : p.registerTransition tr = .ok p') : OrdArcs p'.arcs := by
  obtain ⟨mats, tags, deps, stack, buffer, arcs⟩ := p
  obtain ⟨⟨dead, hc⟩, hne⟩ := h
  simp only at hb hne hc ho
  obtain ⟨b, bs, rfl⟩ := List.exists_cons_of_ne_nil hb
  obtain ⟨t, s, rfl⟩ := List.exists_cons_of_ne_nil (hne hb)
  cases tr with
  | LEFT =>
    simp only [Parse.registerTransition, Parse.top, Parse.front, bind, Except.bind] at e
    split at e
    · cases e
    · rw [reduce_arcs e]
      exact hc.ord_left ho
  | RIGHT =>
    simp only [Parse.registerTransition, Parse.top, Parse.front, bind, Except.bind] at e
    split at e
    · cases e
    · rw [shift_arcs e]
      exact hc.ord_right ho
  | REDUCE =>
    simp only [Parse.registerTransition] at e
    rw [reduce_arcs e]
    exact ho
  | SHIFT =>
    simp only [Parse.registerTransition] at e
    rw [shift_arcs e]
    exact ho

theorem runTrans_ord : ∀ (ts : List Trans) {p p' : Parse X}, ParseInv p → OrdArcs p.arcs → runTrans p ts = .ok p' →
    OrdArcs p'.arcs
  | [], p, p', _, ho, e => by cases e; exact ho
  | tr :: ts, p, p', h, ho, e => by
    unfold runTrans at e
    split at e
    · cases e; exact ho
    · rename_i hc
      have hb : p.buffer ≠ [] := fun x => hc (complete_iff.mpr x)
      obtain ⟨p1, h1, h2, -⟩ := h.step hb tr
      simp only [h1, bind, Except.bind] at e
      exact runTrans_ord ts h2 (step_ord h hb ho h1) e

/-! ### Gold arcs -/

theorem goldArcs_sorted (tuples : List TokenTuple) : ((goldArcs tuples).map fun a => a.2.2).Pairwise (· < ·) := by
  unfold goldArcs
  rw [List.map_filterMap]
  have hz : tuples.zipIdx.Pairwise fun x y => x.2 < y.2 := by
    have : (tuples.zipIdx.map Prod.snd).Pairwise (· < ·) := by
      rw [List.zipIdx_map_snd]
      exact List.pairwise_lt_range'
    exact List.pairwise_map.mp this
  refine List.Pairwise.filterMap _ ?_ hz
  intro x y hxy b hb b' hb'
  have h1 : b = x.2 := by
    split at hb
    · simpa using hb.symm
    · simp at hb
  have h2 : b' = y.2 := by
    split at hb'
    · simpa using hb'.symm
    · simp at hb'
  omega

/-- Arcs in the order of the parser are the gold arcs, as far as the pipeline is concerned. -/
theorem sameArcs_gold {tuples : List TokenTuple} {arcs : List Arc} (hn : arcs.Nodup) (hne : ∀ a ∈ arcs, a.2.1 ≠ a.2.2)
    (hm : ∀ d h c, (d, h, c) ∈ arcs ↔ GoldArc tuples d h c) (ho : OrdArcs arcs)
    (hone : ∀ l ∈ rankedDeps, ∀ p c c', GoldArc tuples l p c → GoldArc tuples l p c' → c < p → c' < p → c = c') :
    SameArcs (goldArcs tuples) arcs := by
  have hs := goldArcs_sorted tuples
  have hgn : (goldArcs tuples).Nodup := List.Nodup.of_map _ (goldArcs_single tuples)
  have hp : (goldArcs tuples).Perm arcs := by
    rw [List.perm_ext_iff_of_nodup hgn hn]
    rintro ⟨d, h, c⟩
    rw [mem_goldArcs, hm]
  refine ⟨hp, goldArcs_single tuples, ?_⟩
  intro l hl p
  have hperm : (labelled (goldArcs tuples) p l).Perm (labelled arcs p l) := (hp.filter _).map _
  refine List.Perm.eq_of_pairwise (le := (· < ·)) (fun a b _ _ h1 h2 => absurd h1 (by omega)) ?_ ?_ hperm
  · exact List.Pairwise.sublist (List.Sublist.map _ List.filter_sublist) hs
  · unfold labelled
    rw [List.pairwise_map]
    have hpw : (arcs.filter fun a => decide (a.1 = l ∧ a.2.1 = p)).Pairwise fun a b => a ∈ arcs ∧ b ∈ arcs ∧
        (a.1 = l ∧ a.2.1 = p) ∧ (b.1 = l ∧ b.2.1 = p) ∧ a ≠ b ∧ (a.2.1 = b.2.1 →
          (b.2.2 < b.2.1 → a.2.2 < a.2.1 ∧ b.2.2 < a.2.2) ∧ (b.2.1 < b.2.2 → a.2.2 < b.2.2)) := by
      have h1 : (arcs.filter fun a => decide (a.1 = l ∧ a.2.1 = p)).Pairwise fun a b => a ≠ b ∧ (a.2.1 = b.2.1 →
          (b.2.2 < b.2.1 → a.2.2 < a.2.1 ∧ b.2.2 < a.2.2) ∧ (b.2.1 < b.2.2 → a.2.2 < b.2.2)) :=
        (hn.and ho).sublist List.filter_sublist
      refine List.Pairwise.imp_of_mem ?_ h1
      intro a b ha hb h
      have ha' := List.mem_filter.mp ha
      have hb' := List.mem_filter.mp hb
      exact ⟨ha'.1, hb'.1, by simpa using ha'.2, by simpa using hb'.2, h⟩
    refine hpw.imp ?_
    rintro ⟨l1, p1, c1⟩ ⟨l2, p2, c2⟩ ⟨m1, m2, ⟨rfl, rfl⟩, ⟨e1, e2⟩, hab, h⟩
    simp only at e1 e2 h ⊢
    subst e1 e2
    have h := h rfl
    rcases Nat.lt_or_gt_of_ne (hne _ m2) with hlt | hgt
    · exact h.2 hlt
    · exfalso
      have h' := h.1 hgt
      have := hone _ hl _ _ _ ((hm _ _ _).mp m1) ((hm _ _ _).mp m2) h'.1 hgt
      omega

/-! ### Following the oracle -/

/-- The transitions of the oracle name the top of the stack and the front of the buffer they are made at. -/
inductive Sync : Parse X → List (Nat × Nat × Trans) → Prop
  | done {p} : p.complete = true → Sync p []
  | step {p p1 t b tr ts} : p.complete = false → p.top = .ok t → p.front = .ok b → p.registerTransition tr = .ok p1 →
      Sync p1 ts → Sync p ((t, b, tr) :: ts)

theorem oracle_sync (s : LabelledSentence) : ∀ (fuel : Nat) (acc : List (Nat × Nat × Trans)) (p : Parse X)
    (out : List (Nat × Nat × Trans)), ParseInv p → s.oracleLoop fuel p.stack p.buffer acc = .ok (some out) →
    ∃ trs, out = acc ++ trs ∧ Sync p trs := by
  intro fuel
  induction fuel using Nat.strong_induction_on with
  | _ fuel ih =>
    intro acc p out hp e
    obtain ⟨mats, tags, deps, stack, buffer, arcs⟩ := p
    simp only at e
    cases buffer with
    | nil =>
      have : s.oracleLoop fuel stack [] acc = .ok (some acc) := by cases fuel <;> cases stack <;> rfl
      rw [this] at e
      cases e
      exact ⟨[], by simp, .done rfl⟩
    | cons b bs =>
      obtain ⟨t, ts, rfl⟩ := List.exists_cons_of_ne_nil (hp.ne (by simp))
      cases fuel with
      | zero => simp [LabelledSentence.oracleLoop] at e
      | succ fuel =>
        -- a transition that pops, on both sides
        have hpop : ∀ (tr : Trans) (p1 : Parse X) (acc' : List (Nat × Nat × Trans)), ParseInv p1 →
            (ts ≠ [] → p1.stack = ts ∧ p1.buffer = b :: bs) → (ts = [] → p1.stack = [b] ∧ p1.buffer = bs) →
            s.oracleLoop fuel ts (b :: bs) acc' = .ok (some out) → ∃ trs, out = acc' ++ trs ∧ Sync p1 trs := by
          intro tr p1 acc' hi h1 h2 he
          by_cases hts : ts = []
          · subst hts
            cases fuel with
            | zero => simp [LabelledSentence.oracleLoop] at he
            | succ fuel =>
              simp only [LabelledSentence.oracleLoop] at he
              refine ih fuel (by omega) acc' p1 out hi ?_
              rw [(h2 rfl).1, (h2 rfl).2]
              exact he
          · refine ih fuel (by omega) acc' p1 out hi ?_
            rw [(h1 hts).1, (h1 hts).2]
            exact he
        have wrap : ∀ (tr : Trans) (p1 : Parse X),
            Parse.registerTransition ⟨mats, tags, deps, t :: ts, b :: bs, arcs⟩ tr = .ok p1 →
            (∃ trs, out = (acc ++ [(t, b, tr)]) ++ trs ∧ Sync p1 trs) →
            ∃ trs, out = acc ++ trs ∧ Sync ⟨mats, tags, deps, t :: ts, b :: bs, arcs⟩ trs := by
          rintro tr p1 h1 ⟨trs, h2, h3⟩
          exact ⟨(t, b, tr) :: trs, by simp [h2], .step rfl rfl rfl h1 h3⟩
        have hred : ∀ (a : List Arc) (p1 : Parse X),
            Parse.reduce (⟨mats, tags, deps, t :: ts, b :: bs, a⟩ : Parse X) = .ok p1 →
            (ts ≠ [] → p1.stack = ts ∧ p1.buffer = b :: bs) ∧ (ts = [] → p1.stack = [b] ∧ p1.buffer = bs) := by
          intro a p1 h1
          unfold Parse.reduce at h1
          simp only at h1
          split at h1
          · rename_i h
            subst h
            simp only [Parse.shift] at h1
            cases h1
            simp
          · rename_i h
            cases h1
            simp [h]
        have hshi : ∀ (a : List Arc) (p1 : Parse X),
            Parse.shift (⟨mats, tags, deps, t :: ts, b :: bs, a⟩ : Parse X) = .ok p1 →
            p1.stack = b :: t :: ts ∧ p1.buffer = bs := by
          intro a p1 h1
          simp only [Parse.shift] at h1
          cases h1
          simp
        simp only [LabelledSentence.oracleLoop, bind, Except.bind] at e
        split at e
        · cases e
        split at e
        · obtain ⟨p1, h1, h2, -⟩ := hp.step (by simp) .LEFT
          refine wrap .LEFT p1 h1 ?_
          have h1' := h1
          simp only [Parse.registerTransition, Parse.top, Parse.front, bind, Except.bind] at h1'
          split at h1'
          · cases h1'
          obtain ⟨k1, k2⟩ := hred _ _ h1'
          exact hpop .LEFT p1 _ h2 k1 k2 e
        split at e
        · cases e
        split at e
        · obtain ⟨p1, h1, h2, -⟩ := hp.step (by simp) .RIGHT
          refine wrap .RIGHT p1 h1 ?_
          have h1' := h1
          simp only [Parse.registerTransition, Parse.top, Parse.front, bind, Except.bind] at h1'
          split at h1'
          · cases h1'
          obtain ⟨k1, k2⟩ := hshi _ _ h1'
          refine ih fuel (by omega) _ p1 out h2 ?_
          rw [k1, k2]
          exact e
        split at e
        · cases e
        split at e
        · obtain ⟨p1, h1, h2, -⟩ := hp.step (by simp) .REDUCE
          refine wrap .REDUCE p1 h1 ?_
          obtain ⟨k1, k2⟩ := hred _ _ h1
          exact hpop .REDUCE p1 _ h2 k1 k2 e
        · obtain ⟨p1, h1, h2, -⟩ := hp.step (by simp) .SHIFT
          refine wrap .SHIFT p1 h1 ?_
          obtain ⟨k1, k2⟩ := hshi _ _ h1
          refine ih fuel (by omega) _ p1 out h2 ?_
          rw [k1, k2]
          exact e

theorem Sync.run {p : Parse X} {trs : List (Nat × Nat × Trans)} (h : Sync p trs) :
    ∃ q, runTrans p (trs.map fun x => x.2.2) = .ok q ∧ q.complete = true := by
  induction h with
  | done h => exact ⟨_, rfl, h⟩
  | step h _ _ h1 _ ih =>
    obtain ⟨q, e, hq⟩ := ih
    refine ⟨q, ?_, hq⟩
    simp [runTrans, h, h1, bind, Except.bind, e]

/-- A model that predicts each transition of the oracle where it is made leads to the same parse. -/
theorem Sync.final {model : List (X × List Bool × List Bool) → List Trans} {m : X × List Bool × List Bool → Trans}
    (hm : ∀ rows, model rows = rows.map m) {p q : Parse X} {trs : List (Nat × Nat × Trans)} (h : Sync p trs)
    (hmats : ∀ x ∈ trs, ∀ m1 m2, makeMasks (x.1 + 1) (x.2.1 + 1) = .ok (m1, m2) → m (p.mats, m1, m2) = x.2.2)
    (hg : Good p) (hf : FinalRel model p q) : runTrans p (trs.map fun x => x.2.2) = .ok q := by
  obtain ⟨hr, hq⟩ := hf
  induction h with
  | done h =>
    rcases Relation.ReflTransGen.cases_head hr with e | ⟨c, hc, _⟩
    · rw [e]; rfl
    · have := hc.1
      rw [h] at this
      cases this
  | @step p p1 t b tr ts hc ht hb h1 _ ih =>
    rcases Relation.ReflTransGen.cases_head hr with e | ⟨c, hs, hr'⟩
    · subst e
      rw [hc] at hq
      cases hq
    · have hgc := (hs.good hg).1
      obtain ⟨_, row, tr', r1, r2, r3⟩ := hs
      have hrow : ∃ m1 m2, makeMasks (t + 1) (b + 1) = .ok (m1, m2) ∧ row = (p.mats, m1, m2) := by
        unfold Parse.rowOf at r1
        simp only [ht, hb, bind, Except.bind] at r1
        split at r1
        · cases r1
        · rename_i mm he
          cases r1
          exact ⟨mm.1, mm.2, he, rfl⟩
      obtain ⟨m1, m2, e1, rfl⟩ := hrow
      have htr : tr' = tr := by
        rw [r3 m hm]
        exact hmats (t, b, tr) (by simp) m1 m2 e1
      subst htr
      rw [h1] at r2
      cases r2
      have hbuf : p.buffer ≠ [] := by
        intro x
        rw [complete_iff.mpr x] at hc
        cases hc
      obtain ⟨p1', k1, -, -, -, -, k2⟩ := hg.1.step hbuf tr'
      rw [h1] at k1
      cases k1
      have := ih (fun x hx m1 m2 hh => by rw [k2]; exact hmats x (by simp [hx]) m1 m2 hh) hgc hr'
      simp [runTrans, hc, h1, bind, Except.bind, this]

end Model
