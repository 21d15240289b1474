import Verif.Lemmas.Parser
import Verif.Props.Mutables

/-! Lemmas on the whole parser: batches, prediction rounds and thread pools. -/

namespace Model
open Py Spec

variable {X : Type}

/-! ### Thread pools on items where `process` succeeds -/

theorem mapM_append_eq_ok {α β} {process : α → Except PyErr β} {a b : List α} {ys : List β}
    (h : (a ++ b).mapM process = .ok ys) :
    ∃ ya yb, a.mapM process = .ok ya ∧ b.mapM process = .ok yb ∧ ys = ya ++ yb := by
  rw [List.mapM_append] at h
  cases ha : a.mapM process with
  | error e => simp [ha, bind, Except.bind] at h
  | ok ya =>
    cases hb : b.mapM process with
    | error e => simp [ha, hb, bind, Except.bind] at h
    | ok yb =>
      simp [ha, hb, bind, Except.bind, pure, Except.pure] at h
      exact ⟨ya, yb, rfl, rfl, h.symm⟩

theorem flatMap_sliceResults {α β} {process : α → Except PyErr β} {parts : List (List α)} {ys : List β}
    (h : parts.flatten.mapM process = .ok ys) : parts.flatMap (sliceResults process) = ys := by
  induction parts generalizing ys with
  | nil =>
    simp [pure, Except.pure] at h
    simp [h]
  | cons p ps ih =>
    rw [List.flatten_cons] at h
    obtain ⟨ya, yb, h1, h2, rfl⟩ := mapM_append_eq_ok h
    rw [List.flatMap_cons, ih h2]
    simp [sliceResults, h1]

theorem runMultithreads_of_ok {α β} (R : Rounding) (items : List α) (process : α → Except PyErr β) (ys : List β)
    (hf : items.mapM process = .ok ys) (k : Int) (hk : 0 < k) :
    (∀ sched, runMultithreads R items process k sched = .ok none ∨
      runMultithreads R items process k sched = .ok (some ys)) ∧
    (∀ sched, ∃ sched', runMultithreads R items process k (sched ++ sched') = .ok (some ys)) := by
  obtain ⟨parts, hp, hflat⟩ := Props.C01_divide_list_partition R items k hk
  have inv := PoolInv.init process parts
  have hout : parts.flatMap (sliceResults process) = ys := flatMap_sliceResults (by rw [hflat]; exact hf)
  constructor
  · intro sched
    simp only [runMultithreads, hp, bind, Except.bind, pure, Except.pure]
    split
    · rename_i hr
      rw [(inv.run sched).returned_output hr, hout]
      exact Or.inr rfl
    · exact Or.inl rfl
  · intro sched
    obtain ⟨sched', hr⟩ := (inv.run sched).progress
    refine ⟨sched', ?_⟩
    have hrun : (PoolSt.init parts).run process (sched ++ sched') =
        ((PoolSt.init parts).run process sched).run process sched' := by
      simp [PoolSt.run]
    simp only [runMultithreads, hp, bind, Except.bind, pure, Except.pure]
    rw [hrun, if_pos hr, ((inv.run sched).run sched').returned_output hr, hout]

/-! ### Prediction rounds -/

/-- A parse within the invariant and the maximal sentence length. -/
def Good (p : Parse X) : Prop := ParseInv p ∧ p.deps.length ≤ maxSentLength

/-- The model predicts one transition per row. -/
def LenPres (model : List (X × List Bool × List Bool) → List Trans) : Prop :=
  ∀ rows, (model rows).length = rows.length

/-- One prediction step of an incomplete parse. -/
def StepRel (model : List (X × List Bool × List Bool) → List Trans) (p p' : Parse X) : Prop :=
  p.complete = false ∧ ∃ row tr, p.rowOf = .ok row ∧ p.registerTransition tr = .ok p' ∧
    ∀ m, (∀ rows, model rows = rows.map m) → tr = m row

theorem Good.rowOf {p : Parse X} (h : Good p) (hc : p.complete = false) : ∃ row, p.rowOf = .ok row := by
  obtain ⟨⟨⟨dead, hi⟩, hne⟩, hl⟩ := h
  have hb : p.buffer ≠ [] := by
    intro e
    rw [complete_iff.mpr e] at hc
    cases hc
  obtain ⟨b, bs, hb'⟩ := List.exists_cons_of_ne_nil hb
  obtain ⟨t, ts, ht'⟩ := List.exists_cons_of_ne_nil (hne hb)
  obtain ⟨d1, h1, _⟩ := hi.valid t (by simp [ht'])
  obtain ⟨d2, h2, _⟩ := hi.valid b (by simp [hb'])
  have l1 := (List.getElem?_eq_some_iff.mp h1).1
  have l2 := (List.getElem?_eq_some_iff.mp h2).1
  have k1 : t + 1 < paddedSentLength := by simp only [paddedSentLength, maxSentLength] at *; omega
  have k2 : b + 1 < paddedSentLength := by simp only [paddedSentLength, maxSentLength] at *; omega
  exact ⟨_, by simp [Parse.rowOf, Parse.top, Parse.front, ht', hb', makeMasks, makeMask, k1, k2, bind, Except.bind,
    pure, Except.pure]; rfl⟩

theorem StepRel.good {model : List (X × List Bool × List Bool) → List Trans} {p p' : Parse X} (hp : Good p)
    (h : StepRel model p p') : Good p' ∧ p'.work < p.work ∧ p'.tags = p.tags ∧ p'.deps = p.deps := by
  obtain ⟨hc, row, tr, _, htr, _⟩ := h
  have hb : p.buffer ≠ [] := by
    intro e
    rw [complete_iff.mpr e] at hc
    cases hc
  obtain ⟨q, h1, h2, h3, h4, h5, _⟩ := hp.1.step hb tr
  rw [htr] at h1
  cases h1
  exact ⟨⟨h2, by rw [h4]; exact hp.2⟩, h3, h5, h4⟩

theorem mapM_ok_map {α β : Type} {f : α → Except PyErr β} {g : α → β} {l : List α} (h : ∀ x ∈ l, f x = .ok (g x)) :
    l.mapM f = .ok (l.map g) := by
  induction l with
  | nil => rfl
  | cons a l ih =>
    have := ih fun x hx => h x (by simp [hx])
    simp [this, h a (by simp), bind, Except.bind, pure, Except.pure]

/-- Registering the predictions of a batch one after the other. -/
theorem foldlM_register (pre suf : List Nat) (trs : List Trans) (ps : List (Parse X)) (hlen : trs.length = suf.length)
    (hnd : suf.Nodup) (hok : ∀ i ∈ suf, ∃ p, ps[i]? = some p ∧ Good p ∧ p.complete = false) :
    ∃ ps', (trs.zipIdx pre.length).foldlM (fun ps (tk : Trans × Nat) => do
        let i ← index (pre ++ suf) (tk.2 : Int)
        let p ← index ps (i : Int)
        let p' ← p.registerTransition tk.1
        return ps.set i p') ps = .ok ps' ∧ ps'.length = ps.length ∧
      (∀ i, i ∉ suf → ps'[i]? = ps[i]?) ∧
      (∀ (k i : Nat), suf[k]? = some i → ∃ (p p' : Parse X) (tr : Trans), ps[i]? = some p ∧ trs[k]? = some tr ∧ p.registerTransition tr = .ok p' ∧
        ps'[i]? = some p') := by
  induction suf generalizing pre trs ps with
  | nil =>
    have : trs = [] := List.length_eq_zero_iff.mp (by simpa using hlen)
    subst this
    exact ⟨ps, rfl, rfl, fun _ _ => rfl, by simp⟩
  | cons i suf ih =>
    cases trs with
    | nil => simp at hlen
    | cons tr trs =>
      obtain ⟨p, hp, hg, hc⟩ := hok i (by simp)
      have hb : p.buffer ≠ [] := by
        intro e
        rw [complete_iff.mpr e] at hc
        cases hc
      obtain ⟨q, hq, _⟩ := hg.1.step hb tr
      rw [List.nodup_cons] at hnd
      have hset : ∀ j ∈ suf, (ps.set i q)[j]? = ps[j]? := by
        intro j hj
        have : i ≠ j := fun e => hnd.1 (e ▸ hj)
        rw [List.getElem?_set_ne this]
      obtain ⟨ps', e1, e2, e3, e4⟩ := ih (pre ++ [i]) trs (ps.set i q) (by simpa using hlen) hnd.2 (by
        intro j hj
        rw [hset j hj]
        exact hok j (by simp [hj]))
      refine ⟨ps', ?_, by simpa using e2, ?_, ?_⟩
      · have hidx : index (pre ++ i :: suf) ((pre.length : Nat) : Int) = .ok i :=
          index_of_getElem? (by simp)
        simp only [List.zipIdx_cons, List.foldlM_cons, hidx, bind, Except.bind, index_of_getElem? hp, hq, pure,
          Except.pure]
        simp only [List.append_assoc, List.singleton_append, List.length_append, List.length_singleton, bind,
          Except.bind, pure, Except.pure] at e1
        exact e1
      · intro j hj
        simp only [List.mem_cons, not_or] at hj
        rw [e3 j hj.2, List.getElem?_set_ne (fun e => hj.1 e.symm)]
      · intro k j hk
        cases k with
        | zero =>
          simp only [List.getElem?_cons_zero, Option.some.injEq] at hk
          subst hk
          refine ⟨p, q, tr, hp, rfl, hq, ?_⟩
          rw [e3 i hnd.1]
          have := (List.getElem?_eq_some_iff.mp hp).1
          rw [List.getElem?_set_self this]
        | succ k =>
          simp only [List.getElem?_cons_succ] at hk
          obtain ⟨p1, p2, tr', h1, h2, h3, h4⟩ := e4 k j hk
          refine ⟨p1, p2, tr', ?_, h2, h3, h4⟩
          rw [← h1, hset j (List.mem_of_getElem? hk)]

theorem predictTransitions_spec {model : List (X × List Bool × List Bool) → List Trans} (hm : LenPres model)
    (ps : List (Parse X)) (idxs : List Nat) (hnd : idxs.Nodup)
    (hok : ∀ i ∈ idxs, ∃ p, ps[i]? = some p ∧ Good p ∧ p.complete = false) :
    ∃ ps', predictTransitions model ps idxs = .ok ps' ∧ ps'.length = ps.length ∧
      (∀ i, i ∉ idxs → ps'[i]? = ps[i]?) ∧
      (∀ i ∈ idxs, ∃ p p', ps[i]? = some p ∧ ps'[i]? = some p' ∧ StepRel model p p') := by
  obtain ⟨rows, hrows, hrl⟩ := mapM_ok_of_forall (l := idxs)
    (f := fun (i : Nat) => (do (← index ps (i : Int)).rowOf : Except PyErr (X × List Bool × List Bool))) (by
      intro i hi
      obtain ⟨p, h1, h2, h3⟩ := hok i hi
      obtain ⟨row, hr⟩ := h2.rowOf h3
      exact ⟨row, by simp [index_of_getElem? h1, bind, Except.bind, hr]⟩)
  have hrk : ∀ (idxs : List Nat) (rows : List (X × List Bool × List Bool)),
      idxs.mapM (fun (i : Nat) => (do (← index ps (i : Int)).rowOf : Except PyErr (X × List Bool × List Bool))) =
        .ok rows → ∀ (k i : Nat) (p : Parse X), idxs[k]? = some i → ps[i]? = some p →
        ∃ row, rows[k]? = some row ∧ p.rowOf = .ok row := by
    intro idxs
    induction idxs with
    | nil => intro rows _ k i p h; simp at h
    | cons a idxs ih =>
      intro rows hr k i p hk hp
      rw [List.mapM_cons] at hr
      simp only [bind, Except.bind, pure, Except.pure] at hr
      split at hr
      · cases hr
      · rename_i row hrow
        split at hr
        · cases hr
        · rename_i rest hrest
          cases hr
          cases k with
          | zero =>
            simp only [List.getElem?_cons_zero, Option.some.injEq] at hk
            subst hk
            rw [index_of_getElem? hp] at hrow
            exact ⟨row, rfl, hrow⟩
          | succ k =>
            simp only [List.getElem?_cons_succ] at hk ⊢
            exact ih rest hrest k i p hk hp
  obtain ⟨ps', e1, e2, e3, e4⟩ := foldlM_register [] idxs (model rows) ps (by rw [hm, hrl]) hnd hok
  refine ⟨ps', ?_, e2, e3, ?_⟩
  · unfold predictTransitions
    rw [hrows]
    exact e1
  · intro i hi
    obtain ⟨k, hk, hki⟩ := List.mem_iff_getElem.mp hi
    have hk' : idxs[k]? = some i := by rw [List.getElem?_eq_getElem hk, hki]
    obtain ⟨p, p', tr, h1, h2, h3, h4⟩ := e4 k i hk'
    obtain ⟨p0, g1, g2, g3⟩ := hok i hi
    rw [h1] at g1
    cases g1
    obtain ⟨row, r1, r2⟩ := hrk idxs rows hrows k i p hk' h1
    refine ⟨p, p', h1, h4, g3, row, tr, r2, h3, ?_⟩
    intro m hmm
    rw [hmm, List.getElem?_map, r1] at h2
    exact (Option.some.inj h2).symm

theorem mem_incomplete {ps : List (Parse X)} {i : Nat} :
    i ∈ incomplete ps ↔ ∃ p, ps[i]? = some p ∧ p.complete = false := by
  unfold incomplete
  simp only [List.mem_filter, List.mem_range]
  constructor
  · rintro ⟨h1, h2⟩
    rw [List.getElem?_eq_getElem h1] at h2
    exact ⟨ps[i], List.getElem?_eq_getElem h1, by simpa using h2⟩
  · rintro ⟨p, h1, h2⟩
    refine ⟨(List.getElem?_eq_some_iff.mp h1).1, ?_⟩
    rw [h1]
    simp [h2]

theorem foldlM_predict {model : List (X × List Bool × List Bool) → List Trans} (hm : LenPres model)
    (batches : List (List Nat)) (ps : List (Parse X)) (hnd : batches.flatten.Nodup)
    (hok : ∀ i ∈ batches.flatten, ∃ p, ps[i]? = some p ∧ Good p ∧ p.complete = false) :
    ∃ ps', batches.foldlM (predictTransitions model) ps = .ok ps' ∧ ps'.length = ps.length ∧
      (∀ i, i ∉ batches.flatten → ps'[i]? = ps[i]?) ∧
      (∀ i ∈ batches.flatten, ∃ p p', ps[i]? = some p ∧ ps'[i]? = some p' ∧ StepRel model p p') := by
  induction batches generalizing ps with
  | nil => exact ⟨ps, rfl, rfl, fun _ _ => rfl, by simp⟩
  | cons b bs ih =>
    rw [List.flatten_cons, List.nodup_append] at hnd
    obtain ⟨n1, n2, n3⟩ := hnd
    obtain ⟨ps1, a1, a2, a3, a4⟩ := predictTransitions_spec hm ps b n1 (fun i hi => hok i (by simp [hi]))
    have hd : ∀ i ∈ bs.flatten, i ∉ b := fun i hi hb => n3 i hb i hi rfl
    obtain ⟨ps2, b1, b2, b3, b4⟩ := ih ps1 n2 (by
      intro i hi
      rw [a3 i (hd i hi)]
      exact hok i (by rw [List.flatten_cons]; exact List.mem_append_right _ hi))
    refine ⟨ps2, ?_, b2.trans a2, ?_, ?_⟩
    · rw [List.foldlM_cons, a1]
      exact b1
    · intro i hi
      rw [List.flatten_cons, List.mem_append, not_or] at hi
      rw [b3 i hi.2, a3 i hi.1]
    · intro i hi
      rw [List.flatten_cons, List.mem_append] at hi
      rcases hi with hi | hi
      · obtain ⟨p, p', h1, h2, h3⟩ := a4 i hi
        exact ⟨p, p', h1, by rw [b3 i (fun h => hd i h hi), h2], h3⟩
      · obtain ⟨p, p', h1, h2, h3⟩ := b4 i hi
        exact ⟨p, p', by rw [← a3 i (hd i hi), h1], h2, h3⟩

theorem predictRound_spec {model : List (X × List Bool × List Bool) → List Trans} (hm : LenPres model) (bs : Nat)
    (hbs : 0 < bs) (ps : List (Parse X)) (hg : ∀ p ∈ ps, Good p) :
    ∃ ps', predictRound model bs ps = .ok ps' ∧
      List.Forall₂ (fun p p' => if p.complete then p' = p else StepRel model p p') ps ps' := by
  have hnd : (incomplete ps).Nodup := List.Nodup.filter _ List.nodup_range
  obtain ⟨batches, hb1, hb2, _⟩ := Props.C03_make_batches (incomplete ps) bs hbs
  obtain ⟨ps', e1, e2, e3, e4⟩ := foldlM_predict hm batches ps (by rw [hb2]; exact hnd) (by
    intro i hi
    rw [hb2, mem_incomplete] at hi
    obtain ⟨p, h1, h2⟩ := hi
    exact ⟨p, h1, hg p (List.mem_of_getElem? h1), h2⟩)
  refine ⟨ps', by simp [predictRound, hb1, bind, Except.bind, e1], ?_⟩
  rw [List.forall₂_iff_get]
  refine ⟨e2.symm, ?_⟩
  intro i h1 h2
  simp only [List.get_eq_getElem]
  split
  · rename_i hc
    have : i ∉ batches.flatten := by
      rw [hb2, mem_incomplete]
      rintro ⟨p, hp, hpc⟩
      rw [List.getElem?_eq_getElem h1] at hp
      cases hp
      rw [hc] at hpc
      cases hpc
    have := e3 i this
    rw [List.getElem?_eq_getElem h1, List.getElem?_eq_getElem h2] at this
    exact Option.some.inj this
  · rename_i hc
    obtain ⟨p, p', k1, k2, k3⟩ := e4 i (by
      rw [hb2, mem_incomplete]
      exact ⟨ps[i], List.getElem?_eq_getElem h1, by simpa using hc⟩)
    rw [List.getElem?_eq_getElem h1] at k1
    rw [List.getElem?_eq_getElem h2] at k2
    cases k1
    cases k2
    exact k3

/-- What the loop does to one parse. -/
def FinalRel (model : List (X × List Bool × List Bool) → List Trans) (p p' : Parse X) : Prop :=
  Relation.ReflTransGen (StepRel model) p p' ∧ p'.complete = true

theorem forall₂_trans' {α β γ : Type} {R : α → β → Prop} {S : β → γ → Prop} {T : α → γ → Prop}
    (h : ∀ a b c, R a b → S b c → T a c) : ∀ {l m n}, List.Forall₂ R l m → List.Forall₂ S m n → List.Forall₂ T l n
  | _, _, _, .nil, .nil => .nil
  | _, _, _, .cons h1 t1, .cons h2 t2 => .cons (h _ _ _ h1 h2) (forall₂_trans' h t1 t2)

theorem predictLoop_spec {model : List (X × List Bool × List Bool) → List Trans} (hm : LenPres model) (bs : Nat)
    (hbs : 0 < bs) (fuel : Nat) (ps : List (Parse X)) (hg : ∀ p ∈ ps, Good p) :
    (∃ r, predictLoop model bs fuel ps = .ok r ∧ ∀ ps', r = some ps' → List.Forall₂ (FinalRel model) ps ps') ∧
    ((∀ p ∈ ps, p.complete = true ∨ p.work ≤ fuel) → ∃ ps', predictLoop model bs fuel ps = .ok (some ps')) := by
  induction fuel generalizing ps with
  | zero =>
    unfold predictLoop
    by_cases hi : incomplete ps = []
    · simp only [hi, if_true]
      have hall : ∀ p ∈ ps, p.complete = true := by
        intro p hp
        obtain ⟨i, hlt, rfl⟩ := List.mem_iff_getElem.mp hp
        by_contra hc
        have : i ∈ incomplete ps := mem_incomplete.mpr ⟨ps[i], List.getElem?_eq_getElem hlt, by simpa using hc⟩
        rw [hi] at this
        simp at this
      refine ⟨⟨_, rfl, ?_⟩, fun _ => ⟨_, rfl⟩⟩
      rintro ps' ⟨⟩
      rw [List.forall₂_same]
      exact fun p hp => ⟨Relation.ReflTransGen.refl, hall p hp⟩
    · simp only [hi, if_false]
      refine ⟨⟨_, rfl, by rintro _ ⟨⟩⟩, ?_⟩
      intro hw
      exfalso
      obtain ⟨i, hii⟩ := List.exists_mem_of_ne_nil _ hi
      obtain ⟨p, h1, h2⟩ := mem_incomplete.mp hii
      rcases hw p (List.mem_of_getElem? h1) with h | h
      · rw [h] at h2; cases h2
      · simp only [Parse.work] at h
        have : p.buffer.length = 0 := by omega
        rw [complete_iff.mpr (List.length_eq_zero_iff.mp this)] at h2
        cases h2
  | succ fuel ih =>
    unfold predictLoop
    by_cases hi : incomplete ps = []
    · simp only [hi, if_true]
      have hall : ∀ p ∈ ps, p.complete = true := by
        intro p hp
        obtain ⟨i, hlt, rfl⟩ := List.mem_iff_getElem.mp hp
        by_contra hc
        have : i ∈ incomplete ps := mem_incomplete.mpr ⟨ps[i], List.getElem?_eq_getElem hlt, by simpa using hc⟩
        rw [hi] at this
        simp at this
      refine ⟨⟨_, rfl, ?_⟩, fun _ => ⟨_, rfl⟩⟩
      rintro ps' ⟨⟩
      rw [List.forall₂_same]
      exact fun p hp => ⟨Relation.ReflTransGen.refl, hall p hp⟩
    · simp only [hi, if_false]
      obtain ⟨ps1, h1, h2⟩ := predictRound_spec hm bs hbs ps hg
      have hg1 : ∀ p ∈ ps1, Good p ∧ ∃ q ∈ ps, (q.complete = true ∧ p = q) ∨ (StepRel model q p) := by
        intro p hp
        obtain ⟨i, hlt, rfl⟩ := List.mem_iff_getElem.mp hp
        rw [List.forall₂_iff_get] at h2
        have hlt' : i < ps.length := h2.1 ▸ hlt
        have := h2.2 i hlt' hlt
        simp only [List.get_eq_getElem] at this
        by_cases hc : ps[i].complete = true
        · simp only [hc, if_true] at this
          rw [this]
          exact ⟨hg _ (List.getElem_mem hlt'), ps[i], List.getElem_mem hlt', Or.inl ⟨hc, rfl⟩⟩
        · simp only [hc, if_false, Bool.false_eq_true] at this
          exact ⟨(this.good (hg _ (List.getElem_mem hlt'))).1, ps[i], List.getElem_mem hlt', Or.inr this⟩
      obtain ⟨⟨r, g1, g2⟩, g3⟩ := ih ps1 fun p hp => (hg1 p hp).1
      simp only [h1, bind, Except.bind]
      refine ⟨⟨r, g1, ?_⟩, ?_⟩
      · intro ps' hr
        refine forall₂_trans' ?_ h2 (g2 ps' hr)
        intro a b c hab hbc
        by_cases hc : a.complete = true
        · simp only [hc, if_true] at hab
          subst hab
          exact hbc
        · simp only [hc, if_false, Bool.false_eq_true] at hab
          exact ⟨Relation.ReflTransGen.head hab hbc.1, hbc.2⟩
      · intro hw
        apply g3
        intro p hp
        obtain ⟨_, q, hq, h | h⟩ := hg1 p hp
        · left; rw [h.2]; exact h.1
        · rcases hw q hq with hq' | hq'
          · rw [h.1] at hq'; cases hq'
          · right
            have := (h.good (hg q hq)).2.1
            omega

theorem FinalRel.good {model : List (X × List Bool × List Bool) → List Trans} {p p' : Parse X} (hp : Good p)
    (h : FinalRel model p p') : Good p' ∧ p'.tags = p.tags ∧ p'.deps = p.deps := by
  obtain ⟨h, hcomp⟩ := h
  clear hcomp
  induction h with
  | refl => exact ⟨hp, rfl, rfl⟩
  | tail _ hs ih =>
    obtain ⟨a, b, c, d⟩ := hs.good ih.1
    exact ⟨a, c.trans ih.2.1, d.trans ih.2.2⟩

/-- With a row-wise model the final parse is determined by the initial one. -/
theorem FinalRel.unique {model model' : List (X × List Bool × List Bool) → List Trans} {m : X × List Bool × List Bool → Trans}
    (hm : ∀ rows, model rows = rows.map m) (hm' : ∀ rows, model' rows = rows.map m) {p q q' : Parse X}
    (h : FinalRel model p q) (h' : FinalRel model' p q') : q = q' := by
  obtain ⟨h1, h2⟩ := h
  obtain ⟨h1', h2'⟩ := h'
  induction h1 using Relation.ReflTransGen.head_induction_on with
  | refl =>
    rcases Relation.ReflTransGen.cases_head h1' with e | ⟨c, hc, _⟩
    · exact e
    · have := hc.1
      rw [h2] at this
      cases this
  | head hs _ ih =>
    rcases Relation.ReflTransGen.cases_head h1' with e | ⟨c, hc, hr⟩
    · subst e
      have := hs.1
      rw [h2'] at this
      cases this
    · obtain ⟨_, row, tr, r1, r2, r3⟩ := hs
      obtain ⟨_, row', tr', r1', r2', r3'⟩ := hc
      rw [r1] at r1'
      cases r1'
      rw [r3 m hm] at r2
      rw [r3' m hm'] at r2'
      rw [r2] at r2'
      cases r2'
      exact ih hr

/-! ### The whole call -/

/-- Networks whose outputs have the shapes guaranteed by the architecture: one row per sentence, one code per padded
position, codes below the number of classes, one transition per row. -/
structure NetsOk {W : Type} (nets : Networks W) : Prop where
  tagsLen : ∀ ws, (nets.tags ws).length = ws.length
  tagsRow : ∀ ws, ∀ r ∈ nets.tags ws, r.length = paddedSentLength ∧ ∀ c ∈ r, c < 17
  depsLen : ∀ ts ws, ts.length = ws.length → (nets.deps ts ws).length = ws.length
  depsRow : ∀ ts ws, ∀ r ∈ nets.deps ts ws, r.length = paddedSentLength ∧ ∀ c ∈ r, c < 25
  trans : LenPres nets.trans

theorem buildParseTree_ok {p : Parse X} (hp : ParseInv p) : ∃ t, buildParseTree p.arcs = .ok t := by
  obtain ⟨⟨dead, hc⟩, _⟩ := hp
  unfold buildParseTree
  cases hr : rootOf p.arcs with
  | none => exact ⟨none, rfl⟩
  | some r =>
    obtain ⟨t, ht⟩ := buildTree_total r p.arcs hc.ne
    exact ⟨some t, by simp [ht, Except.map]⟩

variable {W S : Type}

/-- The initial parse of a sentence. -/
def InitRel (mats : (Nat × W)) (p : Parse (List Nat × List Nat × W)) : Prop :=
  ∃ tc dc, Parse.new (tc, dc, mats.2) mats.1 tc dc = .ok p ∧ Good p ∧ p.tags.length + 2 = mats.1

theorem batchParses_spec {nets : Networks W} (hn : NetsOk nets) (batch : List (Nat × W))
    (hb : ∀ s ∈ batch, ∃ n, n ≤ maxSentLength ∧ s.1 = n + 2) :
    ∃ ps, batchParses nets batch = .ok ps ∧ List.Forall₂ (fun s p => Good p ∧ p.work ≤ 2 * maxSentLength ∧
        p.tags.length + 2 = s.1 ∧ p.deps.length = p.tags.length ∧
        ∀ (f : W → List Nat) (g : List Nat → W → List Nat), (∀ ws, nets.tags ws = ws.map f) →
          (∀ ts ws, nets.deps ts ws = List.zipWith g ts ws) →
          Parse.new (f s.2, g (f s.2) s.2, s.2) s.1 (f s.2) (g (f s.2) s.2) = .ok p) batch ps := by
  set ws := batch.map Prod.snd with hws
  have hone : ∀ (k : Nat) (s : Nat × W), batch[k]? = some s → ∃ tc dc p, (nets.tags ws)[k]? = some tc ∧
      (nets.deps (nets.tags ws) ws)[k]? = some dc ∧ Parse.new (tc, dc, s.2) s.1 tc dc = .ok p ∧ Good p ∧
      p.work ≤ 2 * maxSentLength ∧ p.tags.length + 2 = s.1 ∧ p.deps.length = p.tags.length := by
    intro k s hk
    have hlt := (List.getElem?_eq_some_iff.mp hk).1
    have l1 : k < (nets.tags ws).length := by rw [hn.tagsLen, hws, List.length_map]; exact hlt
    have l2 : k < (nets.deps (nets.tags ws) ws).length := by
      rw [hn.depsLen _ _ (hn.tagsLen ws), hws, List.length_map]; exact hlt
    obtain ⟨n, hn1, hn2⟩ := hb s (List.mem_of_getElem? hk)
    have r1 := hn.tagsRow ws _ (List.getElem_mem l1)
    have r2 := hn.depsRow (nets.tags ws) ws _ (List.getElem_mem l2)
    obtain ⟨tags, deps, h1, h2, h3, _⟩ := Parse.new_ok
      ((nets.tags ws)[k], (nets.deps (nets.tags ws) ws)[k], s.2) n (nets.tags ws)[k]
      (nets.deps (nets.tags ws) ws)[k] r1.2 r2.2
      (by rw [r2.1]; simp only [paddedSentLength, maxSentLength] at *; omega)
      (by rw [r1.1]; simp only [paddedSentLength, maxSentLength] at *; omega)
    refine ⟨_, _, _, List.getElem?_eq_getElem l1, List.getElem?_eq_getElem l2, by rw [hn2]; exact h1, ?_, ?_, ?_, ?_⟩
    · exact ⟨freshParse_inv _ _ _, by rw [(freshParse_fields _ _ _).2.2, h3]; exact hn1⟩
    · exact (freshParse_work _ _ _).trans (by rw [h3]; omega)
    · rw [(freshParse_fields _ _ _).2.1, h2, hn2]
    · rw [(freshParse_fields _ _ _).2.1, (freshParse_fields _ _ _).2.2, h2, h3]
  have key : ∀ (suf pre : List (Nat × W)), pre ++ suf = batch → ∃ ps,
      (suf.zipIdx pre.length).mapM (fun (s : (Nat × W) × Nat) => do
        let tc ← index (nets.tags ws) (s.2 : Int)
        let dc ← index (nets.deps (nets.tags ws) ws) (s.2 : Int)
        Parse.new (tc, dc, s.1.2) s.1.1 tc dc) = .ok ps ∧
      List.Forall₂ (fun s p => Good p ∧ p.work ≤ 2 * maxSentLength ∧ p.tags.length + 2 = s.1 ∧ p.deps.length = p.tags.length ∧
        ∀ (f : W → List Nat) (g : List Nat → W → List Nat), (∀ ws, nets.tags ws = ws.map f) →
          (∀ ts ws, nets.deps ts ws = List.zipWith g ts ws) →
          Parse.new (f s.2, g (f s.2) s.2, s.2) s.1 (f s.2) (g (f s.2) s.2) = .ok p) suf ps := by
    intro suf
    induction suf with
    | nil => intro pre _; exact ⟨[], rfl, .nil⟩
    | cons s suf ih =>
      intro pre hpre
      have hk : batch[pre.length]? = some s := by rw [← hpre]; simp
      obtain ⟨tc, dc, p, h1, h2, h3, h4, h5, h6, h7⟩ := hone _ s hk
      obtain ⟨ps, g1, g2⟩ := ih (pre ++ [s]) (by simpa using hpre)
      refine ⟨p :: ps, ?_, .cons ⟨h4, h5, h6, h7, ?_⟩ g2⟩
      · rw [List.length_append, List.length_singleton] at g1
        simp only [List.zipIdx_cons, List.mapM_cons, index_of_getElem? h1, index_of_getElem? h2, bind, Except.bind, h3,
          pure, Except.pure] at g1 ⊢
        rw [g1]
      · intro f g hf hg
        have hwk : ws[pre.length]? = some s.2 := by rw [hws, List.getElem?_map, hk]; rfl
        have e1 : tc = f s.2 := by
          rw [hf, List.getElem?_map, hwk] at h1
          exact (Option.some.inj h1).symm
        have e2 : dc = g (f s.2) s.2 := by
          rw [hf, hg, List.getElem?_zipWith, List.getElem?_map, hwk] at h2
          exact (Option.some.inj h2).symm
        subst e1 e2
        exact h3
  exact key batch [] rfl

/-- Result of the parser on one sentence. -/
structure OutRel (nets : Networks W) (s : Nat × W) (p : Parse (List Nat × List Nat × W)) : Prop where
  good : Good p
  complete : p.complete = true
  tagsLen : p.tags.length + 2 = s.1
  depsLen : p.deps.length = p.tags.length
  rowwise : ∀ (f : W → List Nat) (g : List Nat → W → List Nat), (∀ ws, nets.tags ws = ws.map f) →
    (∀ ts ws, nets.deps ts ws = List.zipWith g ts ws) →
    ∃ p0, Parse.new (f s.2, g (f s.2) s.2, s.2) s.1 (f s.2) (g (f s.2) s.2) = .ok p0 ∧ FinalRel nets.trans p0 p

theorem parserCall_spec {nets : Networks W} (hn : NetsOk nets) (vectorize : S → Except PyErr (Nat × W))
    (sentences : List S) (vecs : List (Nat × W)) (hvec : sentences.mapM vectorize = .ok vecs)
    (hv : ∀ v ∈ vecs, ∃ n, n ≤ maxSentLength ∧ v.1 = n + 2)
    (R : Rounding) (k : Int) (hk : 0 < k) (bs : Nat) (hbs : 0 < bs) :
    (∀ s₁ s₂ fuel, ∃ r, parserCall ⟨R, k, bs, s₁, s₂, fuel⟩ vectorize nets sentences = .ok r ∧
      ∀ tags trees, r = some (tags, trees) → ∃ ps : List (Parse (List Nat × List Nat × W)),
        List.Forall₂ (OutRel nets) vecs ps ∧ tags = ps.map Parse.tags ∧
        ps.map (fun p => buildParseTree p.arcs) = trees.map Except.ok) ∧
    (∀ s₁ s₂ fuel, 2 * maxSentLength ≤ fuel → ∃ s₁' s₂', ∃ out,
      parserCall ⟨R, k, bs, s₁ ++ s₁', s₂ ++ s₂', fuel⟩ vectorize nets sentences = .ok (some out)) := by
  obtain ⟨v1, v2⟩ := runMultithreads_of_ok R sentences vectorize vecs hvec k hk
  obtain ⟨batches, b1, b2, b3⟩ := Props.C03_make_batches vecs bs hbs
  have hparses : ∃ pss, batches.mapM (batchParses nets) = .ok pss ∧
      List.Forall₂ (fun s p => Good p ∧ p.work ≤ 2 * maxSentLength ∧ p.tags.length + 2 = s.1 ∧ p.deps.length = p.tags.length ∧
        ∀ (f : W → List Nat) (g : List Nat → W → List Nat), (∀ ws, nets.tags ws = ws.map f) →
          (∀ ts ws, nets.deps ts ws = List.zipWith g ts ws) →
          Parse.new (f s.2, g (f s.2) s.2, s.2) s.1 (f s.2) (g (f s.2) s.2) = .ok p) batches.flatten pss.flatten := by
    have hmem : ∀ b ∈ batches, ∀ s ∈ b, ∃ n, n ≤ maxSentLength ∧ s.1 = n + 2 := by
      intro b hb s hs
      have : s ∈ vecs := by rw [← b2]; exact List.mem_flatten.mpr ⟨b, hb, hs⟩
      exact hv s this
    clear b1 b2 b3
    induction batches with
    | nil => exact ⟨[], rfl, .nil⟩
    | cons b bs ih =>
      obtain ⟨ps, h1, h2⟩ := batchParses_spec hn b (hmem b (by simp))
      obtain ⟨pss, g1, g2⟩ := ih fun b' hb' => hmem b' (by simp [hb'])
      refine ⟨ps :: pss, ?_, ?_⟩
      · simp [List.mapM_cons, h1, g1, bind, Except.bind, pure, Except.pure]
      · rw [List.flatten_cons, List.flatten_cons]
        exact List.rel_append h2 g2
  obtain ⟨pss, p1, p2⟩ := hparses
  rw [b2] at p2
  have hgood : ∀ p ∈ pss.flatten, Good p ∧ p.work ≤ 2 * maxSentLength := by
    intro p hp
    obtain ⟨i, hlt, rfl⟩ := List.mem_iff_getElem.mp hp
    rw [List.forall₂_iff_get] at p2
    have := p2.2 i (by rw [p2.1]; exact hlt) hlt
    exact ⟨this.1, this.2.1⟩
  have hloop := fun fuel => predictLoop_spec hn.trans bs hbs fuel pss.flatten fun p hp => (hgood p hp).1
  -- trees of the final parses
  have hfinal : ∀ ps', List.Forall₂ (FinalRel nets.trans) pss.flatten ps' →
      List.Forall₂ (OutRel nets) vecs ps' := by
    intro ps' hps
    refine forall₂_trans' ?_ p2 hps
    intro s p p' h1 h2
    obtain ⟨q1, q2, q3⟩ := h2.good h1.1
    exact ⟨q1, h2.2, by rw [q2]; exact h1.2.2.1, by rw [q2, q3]; exact h1.2.2.2.1,
      fun f g hf hg => ⟨p, h1.2.2.2.2 f g hf hg, h2⟩⟩
  have hout : ∀ ps', List.Forall₂ (OutRel nets) vecs ps' → ∀ p ∈ ps', ∃ t, buildParseTree p.arcs = .ok t := by
    intro ps' h p hp
    obtain ⟨i, hlt, rfl⟩ := List.mem_iff_getElem.mp hp
    rw [List.forall₂_iff_get] at h
    exact buildParseTree_ok (h.2 i (by rw [h.1]; exact hlt) hlt).good.1
  let treeOf : Parse (List Nat × List Nat × W) → Option (Tree Dep Nat) := fun p =>
    match buildParseTree p.arcs with
    | .ok t => t
    | .error _ => none
  have htree : ∀ ps' : List (Parse (List Nat × List Nat × W)), (∀ p ∈ ps', ∃ t, buildParseTree p.arcs = .ok t) → ∀ p ∈ ps',
      buildParseTree p.arcs = .ok (treeOf p) := by
    intro ps' h p hp
    obtain ⟨t, ht⟩ := h p hp
    simp only [treeOf, ht]
  constructor
  · intro s₁ s₂ fuel
    unfold parserCall
    simp only
    rcases v1 s₁ with h1 | h1
    · rw [h1]
      exact ⟨none, rfl, by rintro _ _ ⟨⟩⟩
    · rw [h1]
      simp only [bind, Except.bind, b1, p1]
      obtain ⟨r, hr1, hr2⟩ := (hloop fuel).1
      rw [hr1]
      cases r with
      | none => exact ⟨none, rfl, by rintro _ _ ⟨⟩⟩
      | some ps' =>
        simp only
        have hf := hfinal ps' (hr2 ps' rfl)
        have ht := htree ps' (hout ps' hf)
        obtain ⟨w1, _⟩ := runMultithreads_of_ok R ps' (fun p => buildParseTree p.arcs) _ (mapM_ok_map ht) k hk
        rcases w1 s₂ with h2 | h2
        · rw [h2]
          exact ⟨none, rfl, by rintro _ _ ⟨⟩⟩
        · rw [h2]
          refine ⟨_, rfl, ?_⟩
          intro tags trees he
          simp only [Option.some.injEq, Prod.mk.injEq] at he
          refine ⟨ps', hf, he.1.symm, ?_⟩
          rw [← he.2, List.map_map]
          apply List.map_congr_left
          exact ht
  · intro s₁ s₂ fuel hfuel
    obtain ⟨s₁', h1⟩ := v2 s₁
    obtain ⟨ps', hps⟩ := (hloop fuel).2 fun p hp => Or.inr ((hgood p hp).2.trans hfuel)
    obtain ⟨r, hr1, hr2⟩ := (hloop fuel).1
    rw [hps] at hr1
    cases hr1
    have hf := hfinal ps' (hr2 ps' rfl)
    have ht := htree ps' (hout ps' hf)
    obtain ⟨_, w2⟩ := runMultithreads_of_ok R ps' (fun p => buildParseTree p.arcs) _ (mapM_ok_map ht) k hk
    obtain ⟨s₂', h2⟩ := w2 s₂
    refine ⟨s₁', s₂', (ps'.map Parse.tags, ps'.map treeOf), ?_⟩
    unfold parserCall
    simp only
    rw [h1]
    simp only [bind, Except.bind, b1, p1, hps, h2]
    rfl

end Model
