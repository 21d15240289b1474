import Verif.Model.Networks
import Verif.Props.Pipeline
import Verif.Lemmas.TrainingData
import Verif.Lemmas.SentPlain
import Mathlib.Order.Basic

/-! C91: predictions of the networks. -/

namespace Props
open Py Model

variable {F : Type} [LinearOrder F] {W : Type}

/-- The first best place of a list of scores. -/
def FirstBest (l : List F) (i : Nat) : Prop :=
  ∃ m, l[i]? = some m ∧ (∀ x ∈ l, x ≤ m) ∧ ∀ (j : Nat) y, j < i → l[j]? = some y → y < m

theorem argmaxFrom_spec : ∀ (xs pre : List F) (best : Nat) (m : F), pre[best]? = some m → (∀ x ∈ pre, x ≤ m) →
    (∀ (j : Nat) y, j < best → pre[j]? = some y → y < m) →
    FirstBest (pre ++ xs) (argmaxFrom pre.length best m xs)
  | [], pre, best, m, h1, h2, h3 => by
    rw [argmaxFrom, List.append_nil]
    exact ⟨m, h1, h2, h3⟩
  | x :: xs, pre, best, m, h1, h2, h3 => by
    rw [argmaxFrom]
    have hl := (List.getElem?_eq_some_iff.mp h1).1
    split
    · rename_i h
      have := argmaxFrom_spec xs (pre ++ [x]) pre.length x (by simp) (by
        intro y hy
        rcases List.mem_append.mp hy with hy | hy
        · exact (h2 y hy).trans h.le
        · rw [List.mem_singleton.mp hy]) (by
        intro j y hj hy
        rw [List.getElem?_append_left hj] at hy
        exact (h2 y (List.mem_of_getElem? hy)).trans_lt h)
      simpa using this
    · rename_i h
      have := argmaxFrom_spec xs (pre ++ [x]) best m (by rw [List.getElem?_append_left hl]; exact h1) (by
        intro y hy
        rcases List.mem_append.mp hy with hy | hy
        · exact h2 y hy
        · rw [List.mem_singleton.mp hy]; exact not_lt.mp h) (by
        intro j y hj hy
        rw [List.getElem?_append_left (hj.trans hl)] at hy
        exact h3 j y hj hy)
      simpa using this

theorem FirstBest.unique {l : List F} {i j : Nat} (hi : FirstBest l i) (hj : FirstBest l j) : i = j := by
  obtain ⟨m, h1, h2, h3⟩ := hi
  obtain ⟨n, k1, k2, k3⟩ := hj
  rcases Nat.lt_trichotomy i j with h | h | h
  · exact absurd (k3 i m h h1) (not_lt.mpr (h2 n (List.mem_of_getElem? k1)))
  · exact h
  · exact absurd (h3 j n h k1) (not_lt.mpr (k2 m (List.mem_of_getElem? h1)))

/-- **C91.** `np.argmax` gives the first of the best places, and raises only for an empty vector. -/
theorem C91_argmax (l : List F) : (∀ i, argmax l = .ok i ↔ FirstBest l i) ∧
    ∀ e, argmax l = .error e ↔ l = [] ∧ e = .value := by
  cases l with
  | nil =>
    refine ⟨fun i => ⟨fun h => (by cases h), ?_⟩, fun e => ⟨fun h => ⟨rfl, by cases h; rfl⟩, ?_⟩⟩
    · rintro ⟨m, h, -⟩; simp at h
    · rintro ⟨-, rfl⟩; rfl
  | cons x xs =>
    have hb : FirstBest (x :: xs) (argmaxFrom 1 0 x xs) :=
      argmaxFrom_spec xs [x] 0 x rfl (by simp) (by intro j y hj; omega)
    refine ⟨fun i => ⟨fun h => ?_, fun h => ?_⟩, fun e => ⟨fun h => (by cases h), fun h => (by cases h.1)⟩⟩
    · cases h; exact hb
    · show Except.ok _ = _
      rw [hb.unique h]

/-- The shapes of the scores that the architectures of the networks fix: one row per input, 52 vectors of 17 or 25 scores,
or one vector of 4 scores. -/
structure ScoreShapes (s : ScoreNets F W) : Prop where
  tagsLen : ∀ ws, (s.tags ws).length = ws.length
  tagsRow : ∀ ws, ∀ r ∈ s.tags ws, r.length = 52 ∧ ∀ v ∈ r, v.length = 17
  depsLen : ∀ ts ws, ts.length = ws.length → (s.deps ts ws).length = ws.length
  depsRow : ∀ ts ws, ∀ r ∈ s.deps ts ws, r.length = 52 ∧ ∀ v ∈ r, v.length = 25
  transLen : ∀ rows, (s.trans rows).length = rows.length
  transRow : ∀ rows, ∀ v ∈ s.trans rows, v.length = 4

theorem argmax_total {l : List F} (h : l ≠ []) : ∃ i, argmax l = .ok i ∧ i < l.length := by
  cases ha : argmax l with
  | error e => exact absurd (((C91_argmax l).2 e).mp ha).1 h
  | ok i =>
    obtain ⟨m, hm, -⟩ := ((C91_argmax l).1 i).mp ha
    exact ⟨i, rfl, (List.getElem?_eq_some_iff.mp hm).1⟩

/-- The code of a nonempty vector. -/
def best (l : List F) : Nat :=
  match argmax l with
  | .ok i => i
  | .error _ => 0

theorem argmax_eq_best {l : List F} (h : l ≠ []) : argmax l = .ok (best l) := by
  obtain ⟨i, hi, -⟩ := argmax_total h
  unfold best
  rw [hi]

theorem best_lt {l : List F} (h : l ≠ []) : best l < l.length := by
  obtain ⟨i, hi, hl⟩ := argmax_total h
  unfold best
  rw [hi]; exact hl

theorem predictSeqs_eq {seqs : List (List (List F))} (h : ∀ r ∈ seqs, ∀ v ∈ r, v ≠ []) :
    predictSeqs seqs = .ok (seqs.map fun r => r.map best) :=
  mapM_ok_of fun r hr => mapM_ok_of fun v hv => argmax_eq_best (h r hr v hv)

/-- The transition with a code. -/
def transOf (n : Nat) : Trans := match n with
  | 0 => .LEFT | 1 => .RIGHT | 2 => .REDUCE | _ => .SHIFT

theorem transOf_code {n : Nat} (h : n < 4) : (transOf n).code = n := by
  match n, h with
  | 0, _ => rfl
  | 1, _ => rfl
  | 2, _ => rfl
  | 3, _ => rfl

/-- **C91.** With scores of these shapes the three `predict` methods never raise, and what they return meets all that the
parser assumes of its networks (`NetsOk`): one row of 52 tags and labels for each sentence and one transition for each
parse, all codes known. -/
theorem C91_predictions (s : ScoreNets F W) (h : ScoreShapes s) : ∃ nets : Networks W, NetsOk nets ∧
    (∀ ws, predictSeqs (s.tags ws) = .ok (nets.tags ws)) ∧
    (∀ ts ws, predictSeqs (s.deps ts ws) = .ok (nets.deps ts ws)) ∧
    (∀ rows, predictCodes (s.trans rows) = .ok ((nets.trans rows).map Trans.code)) := by
  have hne : ∀ {v : List F} {n : Nat}, v.length = n + 1 → v ≠ [] := by
    rintro v n hv rfl; simp at hv
  refine ⟨⟨fun ws => (s.tags ws).map fun r => r.map best, fun ts ws => (s.deps ts ws).map fun r => r.map best,
    fun rows => (s.trans rows).map fun v => transOf (best v)⟩, ?_, ?_, ?_, ?_⟩
  · refine ⟨?_, ?_, ?_, ?_, ?_⟩
    · intro ws; simp [h.tagsLen]
    · intro ws r hr
      obtain ⟨r', hr', rfl⟩ := List.mem_map.mp hr
      obtain ⟨h1, h2⟩ := h.tagsRow ws r' hr'
      refine ⟨(by rw [List.length_map]; exact h1), ?_⟩
      intro c hc
      obtain ⟨v, hv, rfl⟩ := List.mem_map.mp hc
      have := best_lt (hne (h2 v hv))
      rw [h2 v hv] at this
      exact this
    · intro ts ws hl; simp [h.depsLen ts ws hl]
    · intro ts ws r hr
      obtain ⟨r', hr', rfl⟩ := List.mem_map.mp hr
      obtain ⟨h1, h2⟩ := h.depsRow ts ws r' hr'
      refine ⟨(by rw [List.length_map]; exact h1), ?_⟩
      intro c hc
      obtain ⟨v, hv, rfl⟩ := List.mem_map.mp hc
      have := best_lt (hne (h2 v hv))
      rw [h2 v hv] at this
      exact this
    · intro rows; simp [h.transLen]
  · exact fun ws => predictSeqs_eq fun r hr v hv => hne ((h.tagsRow ws r hr).2 v hv)
  · exact fun ts ws => predictSeqs_eq fun r hr v hv => hne ((h.depsRow ts ws r hr).2 v hv)
  · intro rows
    have : predictCodes (s.trans rows) = .ok ((s.trans rows).map best) :=
      mapM_ok_of fun v hv => argmax_eq_best (hne (h.transRow rows v hv))
    rw [this]
    simp only [List.map_map, Except.ok.injEq]
    refine List.map_congr_left fun v hv => ?_
    have hlt := best_lt (hne (h.transRow rows v hv))
    rw [h.transRow rows v hv] at hlt
    exact (transOf_code hlt).symm

/-- `mapM` succeeds exactly with the results of the elements. -/
theorem mapM_ok_iff_forall₂ {α β : Type} {f : α → Except PyErr β} : ∀ {l : List α} {r : List β},
    l.mapM f = .ok r ↔ List.Forall₂ (fun x y => f x = .ok y) l r := by
  intro l r
  refine ⟨mapM_forall₂, fun h => ?_⟩
  induction h with
  | nil => rfl
  | cons hab _ ih => rw [List.mapM_cons, hab, ih]; rfl

/-- **C91.** What `predict` returns for tags and labels: for every sentence and every row the code with the first best
score; what it returns for transitions: for every parse the code with the first best score. -/
theorem C91_best (seqs : List (List (List F))) (probas : List (List F)) :
    (∀ out, predictSeqs seqs = .ok out ↔ List.Forall₂ (List.Forall₂ FirstBest) seqs out) ∧
    ∀ out, predictCodes probas = .ok out ↔ List.Forall₂ FirstBest probas out := by
  have hc : ∀ (l : List (List F)) out, l.mapM argmax = .ok out ↔ List.Forall₂ FirstBest l out := by
    intro l out
    rw [mapM_ok_iff_forall₂]
    have : (fun (x : List F) y => argmax x = .ok y) = FirstBest := by
      funext x y; exact propext ((C91_argmax x).1 y)
    rw [this]
  refine ⟨fun out => ?_, fun out => hc probas out⟩
  unfold predictSeqs
  rw [mapM_ok_iff_forall₂]
  have : (fun (x : List (List F)) y => x.mapM argmax = .ok y) = List.Forall₂ FirstBest := by
    funext x y; exact propext (hc x y)
  rw [this]

/-- The numbers of the tags and labels, with which the weights have been trained. -/
def tagNumbers : List (Nat × Tag) :=
  [(0, .PAD), (1, .ADJ), (2, .PREP), (3, .ADV), (4, .MAT), (5, .CONJ), (6, .DET), (7, .EXPR), (8, .NOUN), (9, .NUM),
   (10, .FRAG), (11, .PRON), (12, .PROPN), (13, .PUNCT), (14, .VERB), (15, .SYM), (16, .THERE)]

def depNumbers : List (Nat × Dep) :=
  [(0, .PAD), (1, .NODEP), (2, .ROOT), (3, .AND), (4, .ART), (5, .AUX), (6, .CALLEE), (7, .CMARK), (8, .CPL),
   (9, .EXIST), (10, .FLAT), (11, .IMARK), (12, .INTJ), (13, .IOBJ), (14, .IPROP), (15, .MARK), (16, .MODAL),
   (17, .NEG), (18, .OBJ), (19, .OR), (20, .ORPHAN), (21, .PART), (22, .PROP), (23, .SPLIT), (24, .SUBJ)]

/-- **C91.** A code is a tag, a label or a transition by these numbers, in both directions; other codes raise. -/
theorem C91_codes (n : Nat) :
    (∀ t, Tag.ofCode n = .ok t ↔ (n, t) ∈ tagNumbers) ∧ (∀ e, Tag.ofCode n = .error e ↔ 17 ≤ n ∧ e = .value) ∧
    (∀ t, Tag.code t = n ↔ (n, t) ∈ tagNumbers) ∧
    (∀ d, Dep.ofCode n = .ok d ↔ (n, d) ∈ depNumbers) ∧ (∀ e, Dep.ofCode n = .error e ↔ 25 ≤ n ∧ e = .value) ∧
    (∀ d, Dep.code d = n ↔ (n, d) ∈ depNumbers) ∧
    ∀ t, Trans.code t = n ↔ (n, t) ∈ [(0, Trans.LEFT), (1, .RIGHT), (2, .REDUCE), (3, .SHIFT)] := by
  have hb : ∀ p ∈ tagNumbers, p.1 < 17 := by decide
  have hb' : ∀ p ∈ depNumbers, p.1 < 25 := by decide
  have big : 17 ≤ n → Tag.ofCode n = .error .value := fun h => by
    rw [Tag.ofCode, List.getElem?_eq_none (by simpa [Tag.all] using h)]
  have big' : 25 ≤ n → Dep.ofCode n = .error .value := fun h => by
    rw [Dep.ofCode, List.getElem?_eq_none (by simpa [Dep.all] using h)]
  have small : ∀ n < 17, ∃ t, Tag.ofCode n = .ok t ∧ (n, t) ∈ tagNumbers ∧ ∀ t', (n, t') ∈ tagNumbers → t' = t := by
    have : ∀ n < 17, Tag.ofCode n = .ok Tag.all[n]! ∧ (n, Tag.all[n]!) ∈ tagNumbers ∧
        ∀ p ∈ tagNumbers, p.1 = n → p.2 = Tag.all[n]! := by decide +kernel
    exact fun n hn => ⟨_, (this n hn).1, (this n hn).2.1, fun t' h => (this n hn).2.2 _ h rfl⟩
  have small' : ∀ n < 25, ∃ d, Dep.ofCode n = .ok d ∧ (n, d) ∈ depNumbers ∧ ∀ d', (n, d') ∈ depNumbers → d' = d := by
    have : ∀ n < 25, Dep.ofCode n = .ok Dep.all[n]! ∧ (n, Dep.all[n]!) ∈ depNumbers ∧
        ∀ p ∈ depNumbers, p.1 = n → p.2 = Dep.all[n]! := by decide +kernel
    exact fun n hn => ⟨_, (this n hn).1, (this n hn).2.1, fun d' h => (this n hn).2.2 _ h rfl⟩
  refine ⟨fun t => ⟨fun h => ?_, fun h => ?_⟩, fun e => ⟨fun h => ?_, fun h => ?_⟩, fun t => ⟨fun h => ?_, fun h => ?_⟩,
    fun d => ⟨fun h => ?_, fun h => ?_⟩, fun e => ⟨fun h => ?_, fun h => ?_⟩, fun d => ⟨fun h => ?_, fun h => ?_⟩,
    fun t => ⟨fun h => ?_, fun h => ?_⟩⟩
  · by_cases hn : n < 17
    · obtain ⟨t', h1, h2, -⟩ := small n hn
      rw [h1] at h
      exact Except.ok.inj h ▸ h2
    · rw [big (by omega)] at h
      cases h
  · obtain ⟨t', h1, -, h3⟩ := small n (hb _ h)
    rw [h1, h3 t h]
  · by_cases hn : n < 17
    · obtain ⟨t', h1, -⟩ := small n hn
      rw [h1] at h
      cases h
    · rw [big (by omega)] at h
      exact ⟨by omega, (Except.error.inj h).symm⟩
  · rw [big h.1, h.2]
  · subst h
    cases t <;> decide
  · have : ∀ p ∈ tagNumbers, p.2.code = p.1 := by decide
    exact this _ h
  · by_cases hn : n < 25
    · obtain ⟨t', h1, h2, -⟩ := small' n hn
      rw [h1] at h
      exact Except.ok.inj h ▸ h2
    · rw [big' (by omega)] at h
      cases h
  · obtain ⟨t', h1, -, h3⟩ := small' n (hb' _ h)
    rw [h1, h3 d h]
  · by_cases hn : n < 25
    · obtain ⟨t', h1, -⟩ := small' n hn
      rw [h1] at h
      cases h
    · rw [big' (by omega)] at h
      exact ⟨by omega, (Except.error.inj h).symm⟩
  · rw [big' h.1, h.2]
  · subst h
    cases d <;> decide
  · have : ∀ p ∈ depNumbers, p.2.code = p.1 := by decide
    exact this _ h
  · subst h
    cases t <;> decide
  · have : ∀ p ∈ [(0, Trans.LEFT), (1, .RIGHT), (2, .REDUCE), (3, .SHIFT)], p.2.code = p.1 := by decide
    exact this _ h

/-- Networks that score every code the same have the shapes, and predict the first code everywhere. -/
def flatNets : ScoreNets Nat W where
  tags ws := ws.map fun _ => List.replicate 52 (List.replicate 17 0)
  deps _ ws := ws.map fun _ => List.replicate 52 (List.replicate 25 0)
  trans rows := rows.map fun _ => [0, 2, 1, 2]

theorem flatNets_shapes : ScoreShapes (flatNets (W := W)) where
  tagsLen := by simp [flatNets]
  tagsRow := by
    intro ws r hr
    obtain ⟨_, -, rfl⟩ := List.mem_map.mp hr
    exact ⟨by simp, fun v hv => by rw [List.eq_of_mem_replicate hv]; simp⟩
  depsLen := by simp [flatNets]
  depsRow := by
    intro ts ws r hr
    obtain ⟨_, -, rfl⟩ := List.mem_map.mp hr
    exact ⟨by simp, fun v hv => by rw [List.eq_of_mem_replicate hv]; simp⟩
  transLen := by simp [flatNets]
  transRow := by
    intro rows v hv
    obtain ⟨_, -, rfl⟩ := List.mem_map.mp hv
    rfl

example : argmax [1, 3, 2, 3] = .ok 1 := by decide

example : predictSeqs [[[1, 3, 2, 3], [2, 2]], [[0, 1]]] = .ok [[1, 0], [1]] := by decide

example : predictSeqs [[[1, 3], ([] : List Nat)]] = .error .value := by decide

end Props
