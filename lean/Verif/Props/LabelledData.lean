import Verif.Lemmas.Oracle
import Mathlib.Tactic.IntervalCases

/-! Properties C47, C48 and C75: labelled sentences and the transition oracle. -/

namespace Props
open Py Model Spec

variable {X : Type}

/-- C47: the oracle terminates without error on every sentence that can be read, projective or not. -/
theorem C47_oracle_terminates (tuples : List TokenTuple) (s : LabelledSentence) (h : LabelledSentence.new tuples = .ok s) :
    ∃ ts, s.transitions (2 * tuples.length) = .ok (some ts) := by
  unfold LabelledSentence.new at h
  cases hr : goldRoot tuples with
  | none =>
    rw [hr] at h
    cases h
    exact ⟨[], rfl⟩
  | some r =>
    rw [hr] at h
    simp only [bind, Except.bind, pure, Except.pure] at h
    split at h
    · cases h
    · rename_i tree ht
      cases h
      unfold LabelledSentence.transitions
      split
      · exact ⟨[], rfl⟩
      · rename_i b bs hv
        apply oracleLoop_total ht rfl
        have hlen : (b :: bs).length ≤ tuples.length := by
          rw [← hv]
          simp only [LabelledSentence.validIdxs, List.length_map]
          refine le_trans (List.length_filter_le _ _) ?_
          simp
        simp only [List.length_cons, List.length_nil] at hlen ⊢
        omega

theorem dep_ofCode_code (d : Dep) : Dep.ofCode d.code = .ok d := by cases d <;> decide +kernel

theorem validIdxs_eq (s : LabelledSentence) : s.validIdxs = validOf s.deps := by
  unfold LabelledSentence.validIdxs validOf
  have key : ∀ (l : List Dep) (k : Nat), ((l.zipIdx k).filter fun d => decide (d.1 ≠ .NODEP)).map Prod.snd =
      ((List.range l.length).filter fun i => decide (l[i]? ≠ some .NODEP)).map (· + k) := by
    intro l
    induction l with
    | nil => intro k; simp
    | cons a l ih =>
      intro k
      rw [List.zipIdx_cons, List.length_cons, List.range_succ_eq_map]
      have e : ((List.map Nat.succ (List.range l.length)).filter fun i => decide ((a :: l)[i]? ≠ some .NODEP)).map (· + k) =
          ((List.range l.length).filter fun i => decide (l[i]? ≠ some .NODEP)).map (· + (k + 1)) := by
        rw [List.filter_map, List.map_map]
        congr 1
        funext i
        simp only [Function.comp]
        omega
      by_cases ha : a = .NODEP
      · have h1 : ¬ (decide ((a, k).1 ≠ Dep.NODEP)) = true := by simp [ha]
        have h2 : ¬ (decide ((a :: l)[0]? ≠ some Dep.NODEP)) = true := by simp [ha]
        rw [List.filter_cons, List.filter_cons, if_neg h1, if_neg h2, ih, e]
      · have h1 : (decide ((a, k).1 ≠ Dep.NODEP)) = true := by simp [ha]
        have h2 : (decide ((a :: l)[0]? ≠ some Dep.NODEP)) = true := by simp [ha]
        rw [List.filter_cons, List.filter_cons, if_pos h1, if_pos h2, List.map_cons, List.map_cons, ih, e]
        simp
  have := key s.deps 0
  simpa using this

/-- C47: on a projective gold tree, with the gold dependencies as predictions, the transitions of the oracle lead the
parser to exactly the gold arcs, each made once. -/
theorem C47_oracle_replays (tuples : List TokenTuple) (r : Nat) (H : ProjectiveGold tuples r) (mats : X)
    (tagCodes depCodes : List Nat) (ht : ∀ c ∈ tagCodes, c < 17) (hd : ∀ c ∈ depCodes, c < 25)
    (hlt : tuples.length + 1 ≤ tagCodes.length)
    (hpred : (depCodes.drop 1).take tuples.length = tuples.map fun t => t.2.1.code) :
    ∃ s ts p₀ p, LabelledSentence.new tuples = .ok s ∧ s.transitions (2 * tuples.length) = .ok (some ts) ∧
      Parse.new mats (tuples.length + 2) tagCodes depCodes = .ok p₀ ∧ runTrans p₀ (ts.map fun t => t.2.2) = .ok p ∧
      p.complete = true ∧ p.arcs.Nodup ∧ (∀ d h c, (d, h, c) ∈ p.arcs ↔ GoldArc tuples d h c) ∧
      (p.arcs ≠ [] → rootOf p.arcs = some r) := by
  -- reading the sentence
  have hgr : goldRoot tuples = some r := by
    obtain ⟨tag, q, hr⟩ := H.rootTok
    unfold goldRoot
    have : ∃ t, tuples.zipIdx.find? (fun t => decide (t.1.2.1 = .ROOT)) = some t := by
      rw [← Option.isSome_iff_exists, List.find?_isSome]
      exact ⟨((tag, .ROOT, q), r), by rw [List.mem_zipIdx_iff_getElem?]; exact hr, by simp⟩
    obtain ⟨⟨⟨tag', d', q'⟩, i⟩, hf⟩ := this
    rw [hf]
    have h1 := List.find?_some hf
    have h2 := List.mem_of_find?_eq_some hf
    rw [List.mem_zipIdx_iff_getElem?] at h2
    simp only [decide_eq_true_eq] at h1 h2
    subst h1
    simp [H.oneRoot i tag' q' h2]
  obtain ⟨tree, htree⟩ := buildTree_total r (goldArcs tuples) (by
    rintro ⟨d, p, c⟩ ha e
    simp only at e
    subst e
    exact H.acyclic p (Relation.TransGen.single ⟨d, mem_goldArcs.mp ha⟩))
  let s : LabelledSentence := { tags := tuples.map fun t => t.1, deps := tuples.map fun t => t.2.1, tree := some tree }
  have hs : LabelledSentence.new tuples = .ok s := by
    simp [LabelledSentence.new, hgr, htree, bind, Except.bind, pure, Except.pure, s]
  -- the fresh parse
  have hld : tuples.length + 1 ≤ depCodes.length := by
    have := congrArg List.length hpred
    rw [List.length_take, List.length_drop, List.length_map] at this
    obtain ⟨_, _, hr⟩ := H.rootTok
    have := (List.getElem?_eq_some_iff.mp hr).1
    omega
  obtain ⟨tags, deps, h1, h2, h3, _, h5⟩ := Parse.new_ok mats tuples.length tagCodes depCodes ht hd hld hlt
  have hdeps : deps = tuples.map fun t => t.2.1 := by
    have hsl : slice depCodes 1 ((tuples.length : Int) + 1) = (depCodes.take (tuples.length + 1)).drop 1 := by
      have := slice_nat depCodes 1 (tuples.length + 1)
      push_cast at this
      exact this
    rw [hsl, List.drop_take, Nat.add_sub_cancel, hpred] at h5
    have : ∀ l : List TokenTuple, (l.map fun t => t.2.1.code).mapM Dep.ofCode = .ok (l.map fun t => t.2.1) := by
      intro l
      induction l with
      | nil => rfl
      | cons a l ih => simp [dep_ofCode_code, ih, bind, Except.bind, pure, Except.pure]
    rw [this] at h5
    cases h5
    rfl
  have hv : s.validIdxs = validOf deps := by rw [validIdxs_eq, hdeps]
  have hrv : r ∈ validOf deps := by
    obtain ⟨tag, q, hr⟩ := H.rootTok
    rw [mem_validOf]
    exact ⟨.ROOT, by rw [hdeps, List.getElem?_map, hr]; rfl, by simp⟩
  obtain ⟨b, bs, hbs⟩ := List.exists_cons_of_ne_nil (List.ne_nil_of_mem hrv)
  have hfresh : freshParse mats tags deps = ⟨mats, tags, deps, [b], bs, []⟩ := by
    simp only [freshParse, hbs]
  have htok : ∀ i, i ∈ validOf deps ↔ GoldTok tuples i := by
    intro i
    rw [mem_validOf, hdeps]
    simp only [List.getElem?_map, Option.map_eq_some_iff, GoldTok]
    constructor
    · rintro ⟨d, ⟨⟨tag, d', q⟩, e1, e2⟩, hn⟩
      exact ⟨tag, d', q, e1, by simp only at e2; rw [e2]; exact hn⟩
    · rintro ⟨tag, d, q, e, hn⟩
      exact ⟨d, ⟨_, e, rfl⟩, hn⟩
  have hinit : OInv tuples [] (b :: bs) [] :=
    { gold := by simp
      done := by
        intro d p c hg _
        left
        rw [← hbs, htok]
        exact (hg.tok H).1
      pend := by
        intro d p c hg _
        rw [← hbs, htok, htok]
        exact ⟨Or.inr (hg.tok H).1, Or.inr (hg.tok H).2⟩
      toks := by
        intro x hx
        rw [← htok, hbs]
        simpa using hx }
  have hinv := freshParse_inv mats tags deps
  have hwork := freshParse_work mats tags deps
  rw [hfresh] at hinv hwork
  obtain ⟨trs, p, g1, g2, g3, g4, g5, g6⟩ := oracle_run (s := s) H htree rfl (2 * tuples.length) [] _ hinv (by simp)
    hdeps (hinit.shift H (by simp)) (by rw [h3] at hwork; exact hwork)
  refine ⟨s, trs, _, p, hs, ?_, h1, by rw [hfresh]; exact g2, g3, ?_, ?_, ?_⟩
  · unfold LabelledSentence.transitions
    rw [hv, hbs]
    simpa using g1
  · obtain ⟨dead, hc⟩ := g5.core
    -- arcs to the left and to the right have distinct children
    have hl : (p.arcs.filter fun a => decide (a.2.2 < a.2.1)).Nodup := List.Nodup.of_map _ hc.leftNodup
    have hr : (p.arcs.filter fun a => decide (a.2.1 < a.2.2)).Nodup := List.Nodup.of_map _ hc.rightNodup
    rw [List.nodup_iff_count_le_one]
    intro a
    by_cases ha : a ∈ p.arcs
    · rcases Nat.lt_or_gt_of_ne (hc.ne a ha) with h | h
      · have := List.nodup_iff_count_le_one.mp hr a
        rwa [List.count_filter (by simpa using h)] at this
      · have := List.nodup_iff_count_le_one.mp hl a
        rwa [List.count_filter (by simpa using h)] at this
    · rw [List.count_eq_zero_of_not_mem ha]; omega
  · intro d h c
    constructor
    · intro hm; exact g6.gold _ hm
    · intro hg
      by_contra hn
      have := g6.done d h c hg hn
      rw [complete_iff.mp g3] at this
      simp at this
  · intro hne
    obtain ⟨dead, hc⟩ := g5.core
    obtain ⟨k1, k2⟩ := rootOf_spec p.arcs hc.acyclic
    cases hro : rootOf p.arcs with
    | none => exact absurd (k1.mp hro) hne
    | some r' =>
      obtain ⟨q1, ⟨⟨d, h, c⟩, q2, q3⟩, _⟩ := k2 r' hro
      simp only at q3
      subst q3
      obtain ⟨⟨tag, d', q, e1, e2⟩, _⟩ := (g6.gold _ q2).tok H
      by_cases hd' : d' = .ROOT
      · subst hd'
        exact congrArg some (H.oneRoot _ _ _ e1)
      · exfalso
        obtain ⟨z, rfl, _⟩ := H.headed _ _ _ _ e1 hd' e2
        have hz : GoldArc tuples d' z h := ⟨⟨tag, e1⟩, hd', e2⟩
        have : (d', z, h) ∈ p.arcs := by
          by_contra hn
          have := g6.done _ _ _ hz hn
          rw [complete_iff.mp g3] at this
          simp at this
        exact q1 _ this rfl

/-- The example sentence of the C47 theorems: token 1 is the root with children 0 and 3, token 2 depends on 3 and
token 4 is a punctuation. -/
def demoTuples : List TokenTuple :=
  [(.NOUN, .SUBJ, 1), (.VERB, .ROOT, -1), (.DET, .ART, 3), (.NOUN, .OBJ, 1), (.PUNCT, .NODEP, -1)]

example : ((LabelledSentence.new demoTuples).bind fun s => s.transitions 10) =
    .ok (some [(0, 1, .LEFT), (1, 2, .SHIFT), (2, 3, .LEFT), (1, 3, .RIGHT)]) := by decide +kernel

example : ProjectiveGold demoTuples 1 := by
  have arcs : ∀ d p c, GoldArc demoTuples d p c ↔ (d, p, c) ∈ [(Dep.SUBJ, 1, 0), (.ART, 3, 2), (.OBJ, 1, 3)] := by
    intro d p c
    rw [← mem_goldArcs]
    exact Iff.rfl
  have small : ∀ (i : Nat) t, demoTuples[i]? = some t → i < 5 := fun i t h => (List.getElem?_eq_some_iff.mp h).1
  refine ⟨⟨.VERB, -1, rfl⟩, ?_, ?_, ?_, ?_, ?_⟩
  · intro i tag p h
    have := small i _ h
    interval_cases i <;> simp [demoTuples] at h ⊢
  · intro i tag d p h h1 h2
    have := small i _ h
    interval_cases i <;> simp [demoTuples] at h <;> obtain ⟨rfl, rfl, rfl⟩ := h
    · exact ⟨1, rfl, .VERB, .ROOT, -1, rfl, by simp⟩
    · exact absurd rfl h1
    · exact ⟨3, rfl, .NOUN, .OBJ, 1, rfl, by simp⟩
    · exact ⟨1, rfl, .VERB, .ROOT, -1, rfl, by simp⟩
    · exact absurd rfl h2
  · apply acyclic_of_rank (fun n => match n with | 1 => 0 | 0 => 1 | 3 => 1 | _ => 2)
    rintro p c ⟨d, h⟩
    rw [arcs] at h
    simp at h
    rcases h with ⟨_, rfl, rfl⟩ | ⟨_, rfl, rfl⟩ | ⟨_, rfl, rfl⟩ <;> simp
  · intro d p c d' p' c' h h'
    rw [arcs] at h h'
    simp at h h'
    rcases h with ⟨_, rfl, rfl⟩ | ⟨_, rfl, rfl⟩ | ⟨_, rfl, rfl⟩ <;>
    rcases h' with ⟨_, rfl, rfl⟩ | ⟨_, rfl, rfl⟩ | ⟨_, rfl, rfl⟩ <;> simp [Cross, lo, hi]
  · intro d p c h
    rw [arcs] at h
    simp at h
    rcases h with ⟨_, rfl, rfl⟩ | ⟨_, rfl, rfl⟩ | ⟨_, rfl, rfl⟩ <;> simp [Covers, lo, hi]

/-- C48: the crossing test is geometric: one end of one arc strictly inside the other arc, the remaining end strictly
outside. -/
theorem C48_crossing_geometric (a b : Nat × Nat) :
    arcsAreCrossing ((a.1 : Int), (a.2 : Int)) ((b.1 : Int), (b.2 : Int)) = true ↔ Cross a b := by
  obtain ⟨a1, a2⟩ := a
  obtain ⟨b1, b2⟩ := b
  simp only [arcsAreCrossing, sorted2, lexLe, Cross, lo, hi]
  split_ifs <;> simp only [Bool.and_eq_true, Bool.or_eq_true, decide_eq_true_eq] at * <;> omega

/-- C48: the crossing test ignores the order of the arcs and their directions. -/
theorem C48_crossing_symmetric (a b : Int × Int) :
    arcsAreCrossing a b = arcsAreCrossing b a ∧ arcsAreCrossing (a.2, a.1) b = arcsAreCrossing a b ∧
    arcsAreCrossing a (b.2, b.1) = arcsAreCrossing a b := by
  obtain ⟨a1, a2⟩ := a
  obtain ⟨b1, b2⟩ := b
  simp only [arcsAreCrossing, sorted2, lexLe]
  refine ⟨?_, ?_, ?_⟩ <;> rw [Bool.eq_iff_iff] <;> split_ifs <;>
    simp only [Bool.and_eq_true, Bool.or_eq_true, decide_eq_true_eq] at * <;> omega

example : arcsAreCrossing (1, 3) (2, 4) = true ∧ arcsAreCrossing (4, 2) (3, 1) = true ∧
    arcsAreCrossing (1, 4) (2, 3) = false := by decide +kernel

/-- C48: on two tokens with a head, `have_crossing_arcs` is the geometric test on their arcs. -/
theorem C48_have_crossing (tuples : List TokenTuple) (s : LabelledSentence) (h : LabelledSentence.new tuples = .ok s)
    (hr : goldRoot tuples ≠ none) (d₁ d₂ : Dep) (p₁ p₂ c₁ c₂ : Nat)
    (h₁ : GoldArc tuples d₁ p₁ c₁) (h₂ : GoldArc tuples d₂ p₂ c₂) :
    ∃ b, s.haveCrossingArcs c₁ c₂ = .ok b ∧ (b = true ↔ Cross (p₁, c₁) (p₂, c₂)) := by
  obtain ⟨r, hr⟩ := Option.ne_none_iff_exists'.mp hr
  unfold LabelledSentence.new at h
  rw [hr] at h
  simp only [bind, Except.bind, pure, Except.pure] at h
  split at h
  · cases h
  · rename_i tree ht
    cases h
    have inv := buildTree_inv ht
    have e₁ := lastParent_of_single (goldArcs_single tuples) (mem_goldArcs.mpr h₁)
    have e₂ := lastParent_of_single (goldArcs_single tuples) (mem_goldArcs.mpr h₂)
    have hroot : ∀ d p c, GoldArc tuples d p c → c ≠ tree.root := by
      rintro d p c ⟨⟨tag, h1⟩, h2, _⟩ e
      rw [inv.root_eq] at e
      subst e
      unfold goldRoot at hr
      rw [Option.map_eq_some_iff] at hr
      obtain ⟨⟨⟨tag', d', q'⟩, i⟩, hf, rfl⟩ := hr
      have g1 := List.find?_some hf
      have g2 := List.mem_of_find?_eq_some hf
      rw [List.mem_zipIdx_iff_getElem?] at g2
      simp only [decide_eq_true_eq] at g1 g2
      simp only at h1
      rw [g2] at h1
      simp only [Option.some.injEq, Prod.mk.injEq] at h1
      exact h2 (h1.2.1 ▸ g1)
    refine ⟨_, ?_, C48_crossing_geometric (p₁, c₁) (p₂, c₂)⟩
    have hn : ¬ (c₁ = tree.root ∨ c₂ = tree.root) := by
      rintro (e | e)
      · exact hroot _ _ _ h₁ e
      · exact hroot _ _ _ h₂ e
    simp only [LabelledSentence.haveCrossingArcs, LabelledSentence.getTree, bind, Except.bind, if_neg hn, inv.parent, e₁,
      e₂, pure, Except.pure]

/-- C75 is false: no two arcs of this one-rooted tree cross, yet the replayed transitions lose the arc above the root. -/
theorem C75_crossing_check_suffices_false :
    ∃ (tuples : List TokenTuple) (s : LabelledSentence) (ts : List (Nat × Nat × Trans)) (p₀ p : Parse Unit),
      LabelledSentence.new tuples = .ok s ∧ (∀ c₁ < tuples.length, ∀ c₂ < tuples.length,
        s.haveCrossingArcs c₁ c₂ = .ok false) ∧ s.transitions (2 * tuples.length) = .ok (some ts) ∧
      Parse.new () (tuples.length + 2) [0, 8, 14, 8, 0] ((0 :: tuples.map fun t => t.2.1.code) ++ [0]) = .ok p₀ ∧
      runTrans p₀ (ts.map fun t => t.2.2) = .ok p ∧ p.complete = true ∧
      GoldArc tuples .SUBJ 2 0 ∧ (Dep.SUBJ, 2, 0) ∉ p.arcs := by
  refine ⟨[(.NOUN, .SUBJ, 2), (.VERB, .ROOT, -1), (.NOUN, .OBJ, 1)],
    ⟨[.NOUN, .VERB, .NOUN], [.SUBJ, .ROOT, .OBJ],
      some ⟨1, [(2, [(.SUBJ, [0])]), (1, [(.OBJ, [2])])], [(0, (.SUBJ, 2)), (2, (.OBJ, 1))]⟩⟩,
    [(0, 1, .SHIFT), (1, 2, .RIGHT)], ⟨(), [.NOUN, .VERB, .NOUN], [.SUBJ, .ROOT, .OBJ], [0], [1, 2], []⟩,
    ⟨(), [.NOUN, .VERB, .NOUN], [.SUBJ, .ROOT, .OBJ], [2, 1, 0], [], [(.OBJ, 1, 2)]⟩, rfl, by decide +kernel,
    by decide +kernel, by decide +kernel, by decide +kernel, by decide +kernel, ⟨⟨.NOUN, rfl⟩, by simp, by simp⟩,
    by decide +kernel⟩

end Props
