import Verif.Model.Testing
import Verif.Lemmas.Pipeline

/-! Lemmas on the testing functions of the pipeline. -/

namespace Model
open Py Spec

variable {W : Type} {nets : Networks W} {vectorize : List Str → Except PyErr (Nat × W)} {c : Logic}

/-- The tuples of a sentence are what its nodes say. -/
theorem process_extract {pack : List Str × List Tag × Option (Tree Dep Nat) × Bool} {h : Heap} {dict : Dict Nat Ref}
    {ts : List STuple} (e : c.process pack = .ok ((h, dict), ts)) : extractTuples c.pp h dict.values = .ok ts := by
  obtain ⟨tokens, tags, tree, chunk⟩ := pack
  simp only [Logic.process, bind, Except.bind, pure, Except.pure] at e
  split at e
  · cases e
  · rename_i v hv
    obtain ⟨h₀, dict', nt⟩ := v
    cases nt with
    | none =>
      simp only at e
      split at e
      · split at e
        · cases e
        · rename_i ts' hts
          simp only [Except.ok.injEq, Prod.mk.injEq] at e
          obtain ⟨⟨rfl, rfl⟩, rfl⟩ := e
          exact hts
      · cases e
    | some t =>
      simp only at e
      repeat' (split at e <;> try (cases e))
      all_goals
        rename_i hts
        exact hts

/-- A single item whose processing raises leaves no result. -/
theorem runMultithreads_of_error {α β} (R : Rounding) (x : α) (process : α → Except PyErr β) (e : PyErr)
    (he : process x = .error e) (k : Int) (hk : 0 < k) :
    (∀ sched, runMultithreads R [x] process k sched = .ok none ∨ runMultithreads R [x] process k sched = .ok (some [])) ∧
    (∀ sched, ∃ sched', runMultithreads R [x] process k (sched ++ sched') = .ok (some [])) := by
  obtain ⟨parts, hp, hflat⟩ := Props.C01_divide_list_partition R [x] k hk
  have inv := PoolInv.init process parts
  have hout : parts.flatMap (sliceResults process) = [] := by
    rw [List.flatMap_eq_nil_iff]
    intro p hpm
    unfold sliceResults
    cases p with
    | nil => rfl
    | cons y ys =>
      have : y ∈ parts.flatten := List.mem_flatten.mpr ⟨_, hpm, by simp⟩
      rw [hflat, List.mem_singleton] at this
      subst this
      simp [he, bind, Except.bind]
  constructor
  · intro sched
    unfold runMultithreads
    simp only [hp, bind, Except.bind, pure, Except.pure]
    by_cases hr : ((PoolSt.init parts).run process sched).returned
    · right
      simp only [hr, if_true, (inv.run sched).returned_output hr, hout]
    · left
      simp only [hr, if_false]
  · intro sched
    obtain ⟨sched', hr⟩ := (inv.run sched).progress
    refine ⟨sched', ?_⟩
    have hrun : (PoolSt.init parts).run process (sched ++ sched') =
        ((PoolSt.init parts).run process sched).run process sched' := by
      simp [PoolSt.run, List.foldl_append]
    rw [← hrun] at hr
    unfold runMultithreads
    simp only [hp, bind, Except.bind, pure, Except.pure, hr, if_true, (inv.run (sched ++ sched')).returned_output hr, hout]

theorem makeBatches_nil {α} {n : Int} (h : 0 < n) : makeBatches ([] : List α) n = .ok [] := by
  have h1 : (n.toNat - 1) / n.toNat = 0 := Nat.div_eq_of_lt (by omega)
  simp [makeBatches, pyRange, h1, not_lt.mpr h.le, ne_of_gt h, bind, Except.bind, pure, Except.pure]

/-- The parser when the only sentence cannot be vectorized. -/
theorem parserCall_of_error {s : List Str} {e : PyErr} (he : vectorize s = .error e) (cfg : ParserCfg)
    (hk : 0 < cfg.nbProcesses) (hb : 0 < cfg.batchSize) :
    (parserCall cfg vectorize nets [s] = .ok none ∨ parserCall cfg vectorize nets [s] = .ok (some ([], []))) ∧
    ∃ s₁ s₂, parserCall { cfg with sched₁ := cfg.sched₁ ++ s₁, sched₂ := cfg.sched₂ ++ s₂ } vectorize nets [s] =
      .ok (some ([], [])) := by
  obtain ⟨a1, a2⟩ := runMultithreads_of_error cfg.rounding s vectorize e he cfg.nbProcesses hk
  obtain ⟨b1, b2⟩ := runMultithreads_of_ok cfg.rounding ([] : List (Parse (List Nat × List Nat × W)))
    (fun p => buildParseTree p.arcs) [] rfl cfg.nbProcesses hk
  have hl : ∀ fuel, predictLoop nets.trans cfg.batchSize fuel [] = .ok (some []) := by
    intro fuel; unfold predictLoop; rfl
  constructor
  · unfold parserCall
    rcases a1 cfg.sched₁ with h | h
    · simp [h, bind, Except.bind, pure, Except.pure]
    · rcases b1 cfg.sched₂ with h' | h' <;>
        simp [h, h', hl, makeBatches_nil hb, bind, Except.bind, pure, Except.pure]
  · obtain ⟨s₁, h⟩ := a2 cfg.sched₁
    obtain ⟨s₂, h'⟩ := b2 cfg.sched₂
    refine ⟨s₁, s₂, ?_⟩
    unfold parserCall
    simp [h, h', hl, makeBatches_nil hb, bind, Except.bind, pure, Except.pure]

theorem processTokensAll_spec (ok : PipeOk nets vectorize c) {ss : List (List Str)} (hs : ∀ s ∈ ss, s.length ≤ 50)
    (chunk : Bool) (cfg : PipelineCfg) (hk : 0 < cfg.nbCores) (hb : 0 < cfg.batchSize) :
    (∃ r, processTokensAll cfg vectorize nets c ss chunk = .ok r ∧ ∀ tags trees nodes tl, r = some (tags, trees, nodes, tl) →
      ∃ results, Props.Returned nets vectorize ss tags trees ∧
        (sentPacks ss tags trees chunk).mapM c.process = .ok results ∧ nodes = results.map Prod.fst ∧
        tl = results.map Prod.snd) ∧
    (2 * maxSentLength ≤ cfg.fuel → ∃ s₁ s₂ s₃ out, processTokensAll { cfg with
      schedVectorize := cfg.schedVectorize ++ s₁, schedTrees := cfg.schedTrees ++ s₂, schedLogic := cfg.schedLogic ++ s₃ }
      vectorize nets c ss chunk = .ok (some out)) := by
  have hv := ok.vecs hs
  obtain ⟨b, hbe⟩ := Int.eq_ofNat_of_zero_le (le_of_lt hb)
  obtain ⟨p1, p2⟩ := Props.C41_parser_terminates nets ok.nets vectorize ss hv cfg.rounding cfg.nbCores hk b (by omega)
  have hall : ∀ tags trees, Props.Returned nets vectorize ss tags trees →
      ∃ results, (sentPacks ss tags trees chunk).mapM c.process = .ok results := by
    intro tags trees h
    obtain ⟨ys, h1, -⟩ := mapM_ok_of_forall (l := sentPacks ss tags trees chunk) (f := c.process) (by
      rintro ⟨tokens, tg, o, b⟩ hx
      obtain ⟨i, g1, g2, g3, -⟩ := mem_sentPacks hx
      exact process_ok h ok.logic g2 g3 (Returned.lengths ok hs h g1 g2) b)
    exact ⟨ys, h1⟩
  constructor
  · cases hp : parserCall cfg.parser vectorize nets ss with
    | error e =>
      refine absurd hp ?_
      have := p1 cfg.schedVectorize cfg.schedTrees cfg.fuel e
      unfold PipelineCfg.parser
      rw [hbe]
      exact this
    | ok r =>
      cases r with
      | none => exact ⟨none, by simp [processTokensAll, hp, bind, Except.bind, pure, Except.pure], by simp⟩
      | some out =>
        obtain ⟨tags, trees⟩ := out
        have hr : Props.Returned nets vectorize ss tags trees := ⟨ok.nets, hv, cfg.parser, hk, hb, hp⟩
        obtain ⟨results, he⟩ := hall tags trees hr
        obtain ⟨q1, -⟩ := runMultithreads_of_ok cfg.rounding _ c.process results he cfg.nbCores hk
        rcases q1 cfg.schedLogic with q | q
        · exact ⟨none, by simp [processTokensAll, Logic.processAll, hp, q, bind, Except.bind, pure, Except.pure], by simp⟩
        · refine ⟨some (tags, trees, results.map Prod.fst, results.map Prod.snd),
            by simp [processTokensAll, Logic.processAll, hp, q, bind, Except.bind, pure, Except.pure, List.unzip_eq_map], ?_⟩
          intro tags' trees' nodes tl e
          simp only [Option.some.injEq, Prod.mk.injEq] at e
          obtain ⟨rfl, rfl, rfl, rfl⟩ := e
          exact ⟨results, hr, he, rfl, rfl⟩
  · intro hf
    obtain ⟨s₁, s₂, ⟨tags, trees⟩, hp⟩ := p2 cfg.schedVectorize cfg.schedTrees cfg.fuel hf
    rw [← hbe] at hp
    have hr : Props.Returned nets vectorize ss tags trees := ⟨ok.nets, hv, _, hk, hb, hp⟩
    obtain ⟨results, he⟩ := hall tags trees hr
    obtain ⟨-, q2⟩ := runMultithreads_of_ok cfg.rounding _ c.process results he cfg.nbCores hk
    obtain ⟨s₃, q⟩ := q2 cfg.schedLogic
    refine ⟨s₁, s₂, s₃, (tags, trees, results.map Prod.fst, results.map Prod.snd), ?_⟩
    simp [processTokensAll, PipelineCfg.parser, Logic.processAll, hp, q, bind, Except.bind, pure, Except.pure,
      List.unzip_eq_map]

end Model
