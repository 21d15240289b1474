import Verif.Model.Layers
import Verif.Props.Networks
import Verif.Lemmas.Samples

/-! The networks on the batches that the parser makes. -/

namespace Model
open Py Spec Props

variable {F : Type} [LinearOrder F] {W H S X : Type}

theorem marked_one : ∀ (seq : List H) (i : Nat) (h : i < seq.length),
    ((seq.zip (((List.replicate seq.length false)).set i true)).filter Prod.snd).map Prod.fst = [seq[i]]
  | [], i, h => by simp at h
  | a :: seq, 0, _ => by
    have : ∀ seq : List H, ((seq.zip (List.replicate seq.length false)).filter Prod.snd).map Prod.fst = [] := by
      intro seq
      induction seq with
      | nil => rfl
      | cons b seq ih => simpa [List.replicate_succ] using ih
    simp only [List.length_cons, List.replicate_succ, List.set_cons_zero, List.zip_cons_cons, List.filter_cons, if_true,
      List.map_cons, this, List.getElem_cons_zero]
  | a :: seq, i + 1, h => by
    have ih := marked_one seq i (by simpa using h)
    simpa [List.replicate_succ] using ih

/-- One mark in a row of states. -/
def OneMark (mask : List Bool) : Prop := ∃ i, i < paddedSentLength ∧ mask = (List.replicate paddedSentLength false).set i true

theorem OneMark.marked {mask : List Bool} (h : OneMark mask) {seq : List H} (hs : seq.length = paddedSentLength) :
    ∃ a, ((seq.zip mask).filter Prod.snd).map Prod.fst = [a] := by
  obtain ⟨i, hi, rfl⟩ := h
  rw [← hs] at hi ⊢
  exact ⟨_, marked_one seq i hi⟩

theorem OneMark.length {mask : List Bool} (h : OneMark mask) : mask.length = paddedSentLength := by
  obtain ⟨i, hi, rfl⟩ := h
  simp

theorem makeMask_one {i : Nat} {m : List Bool} (h : makeMask i = .ok m) : OneMark m := by
  unfold makeMask at h
  split at h
  · rename_i hi
    cases h
    exact ⟨i, hi, rfl⟩
  · cases h

theorem rowOf_spec {p : Parse X} {r : X × List Bool × List Bool} (h : p.rowOf = .ok r) :
    r.1 = p.mats ∧ OneMark r.2.1 ∧ OneMark r.2.2 := by
  unfold Parse.rowOf makeMasks at h
  simp only [bind, Except.bind, pure, Except.pure] at h
  split at h
  · cases h
  · split at h
    · cases h
    · split at h
      · cases h
      · rename_i h'
        cases h
        split at h'
        · cases h'
        · split at h'
          · cases h'
          · rename_i h1 _ _ h2
            cases h'
            exact ⟨rfl, makeMask_one h1, makeMask_one h2⟩

theorem shift_mats {p p' : Parse X} (h : p.shift = .ok p') : p'.mats = p.mats := by
  unfold Parse.shift at h
  split at h
  · cases h; rfl
  · cases h

theorem reduce_mats {p p' : Parse X} (h : p.reduce = .ok p') : p'.mats = p.mats := by
  unfold Parse.reduce at h
  split at h
  · cases h
  · simp only at h
    split at h
    · have := shift_mats h; exact this
    · cases h; rfl

theorem registerTransition_mats {p p' : Parse X} {tr : Trans} (h : p.registerTransition tr = .ok p') : p'.mats = p.mats := by
  cases tr with
  | REDUCE => exact reduce_mats h
  | SHIFT => exact shift_mats h
  | LEFT =>
    simp only [Parse.registerTransition, bind, Except.bind] at h
    split at h
    · cases h
    · split at h
      · cases h
      · split at h
        · cases h
        · have := reduce_mats h; exact this
  | RIGHT =>
    simp only [Parse.registerTransition, bind, Except.bind] at h
    split at h
    · cases h
    · split at h
      · cases h
      · split at h
        · cases h
        · have := shift_mats h; exact this

theorem new_mats {m : X} {n : Nat} {tc dc : List Nat} {p : Parse X} (h : Parse.new m n tc dc = .ok p) : p.mats = m := by
  unfold Parse.new at h
  simp only [bind, Except.bind, pure, Except.pure] at h
  split at h
  · cases h
  · split at h
    · cases h
    · split at h
      · cases h
      · split at h
        · exact shift_mats h
        · cases h; rfl

/-- Batches are not empty and consist of the items, whatever the batch size. -/
theorem makeBatches_parts {items : List X} {n : Int} {bs : List (List X)} (h : makeBatches items n = .ok bs) :
    (∀ b ∈ bs, ∀ x ∈ b, x ∈ items) ∧ ∀ b ∈ bs, b ≠ [] := by
  rcases lt_trichotomy n 0 with h0 | h0 | h0
  · rw [(C03_make_batches_nonpositive items).2 _ h0] at h
    cases h
    simp
  · rw [h0, (C03_make_batches_nonpositive items).1] at h
    cases h
  · obtain ⟨n, rfl⟩ := Int.eq_ofNat_of_zero_le h0.le
    obtain ⟨bs', h1, h2, h3, -⟩ := C03_make_batches items n (by omega)
    rw [h1] at h
    cases h
    refine ⟨fun b hb x hx => ?_, fun b hb e => ?_⟩
    · rw [← h2]
      exact List.mem_flatten.mpr ⟨b, hb, hx⟩
    · have := (h3 b hb).1
      rw [e] at this
      simp at this

/-! ### The loop -/

section loop
variable {ok : X → Prop} {model : List (X × List Bool × List Bool) → Except PyErr (List Trans)}
  {net : List (X × List Bool × List Bool) → List Trans}

/-- The predictions agree, and do not raise, on rows with good materials and one mark in each mask. -/
def AgreeOn (ok : X → Prop) (model : List (X × List Bool × List Bool) → Except PyErr (List Trans))
    (net : List (X × List Bool × List Bool) → List Trans) : Prop :=
  ∀ rows, rows ≠ [] → (∀ r ∈ rows, ok r.1 ∧ OneMark r.2.1 ∧ OneMark r.2.2) → model rows = .ok (net rows)

theorem predictTransitions_raising (H : AgreeOn ok model net) (ps : List (Parse X)) (hps : ∀ p ∈ ps, ok p.mats) (idxs : List Nat)
    (hne : idxs ≠ []) : Raising.predictTransitions model ps idxs = predictTransitions net ps idxs ∧
      ∀ ps', predictTransitions net ps idxs = .ok ps' → ∀ p ∈ ps', ok p.mats := by
  unfold Raising.predictTransitions predictTransitions
  cases hr : idxs.mapM (fun (i : Nat) => do (← index ps (i : Int)).rowOf) with
  | error e => exact ⟨rfl, fun _ h => by cases h⟩
  | ok rows =>
    have hrows : ∀ r ∈ rows, ok r.1 ∧ OneMark r.2.1 ∧ OneMark r.2.2 := by
      have := mapM_forall₂ hr
      intro r hm
      obtain ⟨i, hi⟩ := List.mem_iff_getElem?.mp hm
      have hl := this.length_eq
      have hlt := (List.getElem?_eq_some_iff.mp hi).1
      obtain ⟨x, hx⟩ : ∃ x, idxs[i]? = some x := ⟨_, List.getElem?_eq_getElem (by omega)⟩
      have h1 := (List.forall₂_iff_get.mp this).2 i (by omega) hlt
      simp only [bind, Except.bind, List.get_eq_getElem] at h1
      split at h1
      · cases h1
      · rename_i p hp
        rw [← (List.getElem?_eq_some_iff.mp hi).2]
        obtain ⟨a, b, c⟩ := rowOf_spec h1
        refine ⟨?_, b, c⟩
        rw [a]
        exact hps p (index_mem hp)
    have hrn : rows ≠ [] := by
      rintro rfl
      have := (mapM_forall₂ hr).length_eq
      exact hne (List.eq_nil_of_length_eq_zero this)
    simp only [bind, Except.bind, H rows hrn hrows, true_and]
    intro ps' h
    refine foldlM_keeps (fun ps : List (Parse X) => ∀ p ∈ ps, ok p.mats) _ ?_ _ _ _ hps h
    intro ps tk ps' hps h
    split at h
    · cases h
    · split at h
      · cases h
      · rename_i q hq
        split at h
        · cases h
        · rename_i q' hq'
          cases h
          intro p hp
          rcases List.mem_or_eq_of_mem_set hp with hp | rfl
          · exact hps p hp
          · rw [registerTransition_mats hq']
            exact hps q (index_mem hq)

theorem foldlM_raising {A B : Type} {f g : A → B → Except PyErr A} {P : A → Prop} :
    ∀ (l : List B) (a : A), (∀ a, ∀ b ∈ l, P a → f a b = g a b ∧ ∀ a', g a b = .ok a' → P a') → P a → l.foldlM f a = l.foldlM g a ∧ ∀ a', l.foldlM g a = .ok a' → P a'
  | [], a, _, ha => ⟨rfl, fun a' e => by
      simp only [List.foldlM_nil, pure, Except.pure, Except.ok.injEq] at e
      exact e ▸ ha⟩
  | b :: l, a, h, ha => by
    obtain ⟨h1, h2⟩ := h a b (by simp) ha
    rw [List.foldlM_cons, List.foldlM_cons, h1]
    cases hg : g a b with
    | error e => exact ⟨rfl, fun _ h => by cases h⟩
    | ok a' => exact foldlM_raising l a' (fun a b hb => h a b (by simp [hb])) (h2 a' hg)

theorem predictRound_raising (H : AgreeOn ok model net) (bs : Int) (ps : List (Parse X)) (hps : ∀ p ∈ ps, ok p.mats) :
    Raising.predictRound model bs ps = predictRound net bs ps ∧
      ∀ ps', predictRound net bs ps = .ok ps' → ∀ p ∈ ps', ok p.mats := by
  unfold Raising.predictRound predictRound
  cases hb : makeBatches (incomplete ps) bs with
  | error e => exact ⟨rfl, fun _ h => by cases h⟩
  | ok batches =>
    exact foldlM_raising (P := fun ps : List (Parse X) => ∀ p ∈ ps, ok p.mats) batches ps
      (fun ps idxs hi hps => predictTransitions_raising H ps hps idxs ((makeBatches_parts hb).2 idxs hi)) hps

theorem predictLoop_raising (H : AgreeOn ok model net) (bs : Int) : ∀ (fuel : Nat) (ps : List (Parse X)),
    (∀ p ∈ ps, ok p.mats) → Raising.predictLoop model bs fuel ps = predictLoop net bs fuel ps
  | 0, ps, _ => by unfold Raising.predictLoop predictLoop; rfl
  | fuel + 1, ps, hps => by
    obtain ⟨h1, h2⟩ := predictRound_raising H bs ps hps
    rw [Raising.predictLoop, predictLoop]
    split
    · rfl
    · rw [h1]
      cases hr : predictRound net bs ps with
      | error e => rfl
      | ok ps' => exact predictLoop_raising H bs fuel ps' (h2 ps' hr)

end loop

/-! ### The whole parser -/

theorem mapM_from {α β : Type} {f : α → Except PyErr β} {l : List α} {ys : List β} (h : l.mapM f = .ok ys) :
    ∀ y ∈ ys, ∃ x ∈ l, f x = .ok y := by
  replace h := mapM_forall₂ h
  induction h with
  | nil => simp
  | cons hab _ ih =>
    intro y hy
    rcases List.mem_cons.mp hy with rfl | hy
    · exact ⟨_, by simp, hab⟩
    · obtain ⟨x, hx, e⟩ := ih y hy
      exact ⟨x, by simp [hx], e⟩

/-- The codes of a row fit an embedding. -/
theorem codesFit_iff {n : Nat} {codes : List Nat} : codesFit n codes = true ↔
    codes.length = paddedSentLength ∧ ∀ c ∈ codes, c < n := by
  simp [codesFit]

/-- Materials that the transition network accepts. -/
def MatsFit (fits : W → Bool) (m : List Nat × List Nat × W) : Prop :=
  codesFit 17 m.1 = true ∧ codesFit 25 m.2.1 = true ∧ fits m.2.2 = true

/-- Predictions that agree with networks, and do not raise, on all inputs that fit. -/
structure Agree (fits : W → Bool) (P : Predictors W) (nets : Networks W) : Prop where
  tags : ∀ ws, ws ≠ [] → (∀ w ∈ ws, fits w = true) → P.tags ws = .ok (nets.tags ws)
  deps : ∀ ts ws, ws ≠ [] → ts.length = ws.length → (∀ t ∈ ts, codesFit 17 t = true) → (∀ w ∈ ws, fits w = true) →
    P.deps ts ws = .ok (nets.deps ts ws)
  trans : AgreeOn (MatsFit fits) P.trans nets.trans

variable {fits : W → Bool} {P : Predictors W} {nets : Networks W}

theorem batchParses_raising (A : Agree fits P nets) (hn : NetsOk nets) (batch : List (Nat × W))
    (hne : batch ≠ []) (hb : ∀ s ∈ batch, fits s.2 = true) : Raising.batchParses P batch = batchParses nets batch ∧
      ∀ ps, batchParses nets batch = .ok ps → ∀ p ∈ ps, MatsFit fits p.mats := by
  have hw : ∀ w ∈ batch.map Prod.snd, fits w = true := by
    intro w hm
    obtain ⟨s, hs, rfl⟩ := List.mem_map.mp hm
    exact hb s hs
  have hwn : batch.map Prod.snd ≠ [] := by simpa using hne
  have ht : ∀ t ∈ nets.tags (batch.map Prod.snd), codesFit 17 t = true := fun t h =>
    codesFit_iff.mpr (hn.tagsRow _ t h)
  have hd : ∀ t ∈ nets.deps (nets.tags (batch.map Prod.snd)) (batch.map Prod.snd), codesFit 25 t = true := fun t h =>
    codesFit_iff.mpr (hn.depsRow _ _ t h)
  unfold Raising.batchParses batchParses
  simp only [bind, Except.bind, A.tags _ hwn hw, A.deps _ _ hwn (hn.tagsLen _) ht hw, true_and]
  intro ps h p hp
  obtain ⟨s, hs, e⟩ := mapM_from h p hp
  split at e
  · cases e
  · rename_i tc htc
    split at e
    · cases e
    · rename_i dc hdc
      rw [new_mats e]
      refine ⟨ht tc (index_mem htc), hd dc (index_mem hdc), hb s.1 ?_⟩
      obtain ⟨x, i⟩ := s
      rw [List.mem_zipIdx_iff_getElem?] at hs
      exact List.mem_of_getElem? hs

theorem runMultithreads_from {α β} {R : Rounding} {items : List α} {process : α → Except PyErr β} {k : Int} {sched : List Move}
    {ys : List β} (h : runMultithreads R items process k sched = .ok (some ys)) : ∀ y ∈ ys, ∃ x ∈ items, process x = .ok y := by
  by_cases hk : 0 < k
  · obtain ⟨parts, -, -, h3⟩ := C05_run_multithreads_exact_loss_partial R items process k hk
    intro y hy
    have := (h3 sched ys h).2.subset hy
    obtain ⟨x, hx, e⟩ := List.mem_filterMap.mp this
    refine ⟨x, hx, ?_⟩
    cases hp : process x with
    | error e' => rw [hp] at e; cases e
    | ok z => rw [hp] at e; cases e; rfl
  · unfold runMultithreads divideList at h
    rw [if_neg hk] at h
    cases h

theorem parserCall_raising (A : Agree fits P nets) (hn : NetsOk nets) (vectorize : S → Except PyErr (Nat × W))
    (hv : ∀ s n w, vectorize s = .ok (n, w) → fits w = true) (cfg : ParserCfg) (sentences : List S) :
    Raising.parserCall cfg vectorize P sentences = parserCall cfg vectorize nets sentences := by
  unfold Raising.parserCall parserCall
  cases hm : runMultithreads cfg.rounding sentences vectorize cfg.nbProcesses cfg.sched₁ with
  | error e => rfl
  | ok o =>
    cases o with
    | none => rfl
    | some mats =>
      have hmf : ∀ s ∈ mats, fits s.2 = true := by
        intro s hs
        obtain ⟨x, -, hx⟩ := runMultithreads_from hm s hs
        exact hv x s.1 s.2 hx
      simp only [bind, Except.bind]
      cases hb : makeBatches mats cfg.batchSize with
      | error e => rfl
      | ok batches =>
        have hbm : ∀ b ∈ batches, ∀ s ∈ b, fits s.2 = true := by
          intro b hbb s hs
          exact hmf s ((makeBatches_parts hb).1 b hbb s hs)
        have hmap : ∀ bs : List (List (Nat × W)), (∀ b ∈ bs, b ≠ [] ∧ ∀ s ∈ b, fits s.2 = true) →
            bs.mapM (Raising.batchParses P) = bs.mapM (batchParses nets) ∧
            ∀ pss, bs.mapM (batchParses nets) = .ok pss → ∀ ps ∈ pss, ∀ p ∈ ps, MatsFit fits p.mats := by
          intro bs
          induction bs with
          | nil => intro _; exact ⟨rfl, fun pss h => by cases h; simp⟩
          | cons b bs ih =>
            intro hbs
            obtain ⟨i1, i2⟩ := ih fun b' h => hbs b' (by simp [h])
            obtain ⟨j1, j2⟩ := batchParses_raising A hn b (hbs b (by simp)).1 (hbs b (by simp)).2
            rw [List.mapM_cons, List.mapM_cons, i1, j1]
            refine ⟨rfl, ?_⟩
            intro pss h
            simp only [bind, Except.bind, pure, Except.pure] at h
            split at h
            · cases h
            · rename_i q hq
              split at h
              · cases h
              · rename_i qs hqs
                cases h
                intro ps hps
                rcases List.mem_cons.mp hps with rfl | hps
                · exact j2 _ hq
                · exact i2 _ hqs ps hps
        obtain ⟨m1, m2⟩ := hmap batches fun b h => ⟨(makeBatches_parts hb).2 b h, hbm b h⟩
        simp only [m1]
        cases hp : batches.mapM (batchParses nets) with
        | error e => rfl
        | ok pss =>
          simp only
          rw [predictLoop_raising A.trans cfg.batchSize cfg.fuel pss.flatten]
          · rfl
          · intro p hp'
            obtain ⟨ps, h1, h2⟩ := List.mem_flatten.mp hp'
            exact m2 pss hp ps h1 p h2

end Model
