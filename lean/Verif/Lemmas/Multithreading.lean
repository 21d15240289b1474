import Verif.Model.Multithreading
import Verif.Spec.Utils
import Verif.Lemmas.Mutables
import Mathlib.Algebra.BigOperators.Group.List.Basic

/-! Invariants of the thread pool machine. -/

namespace Model
open Py Spec

variable {α β : Type}

/-- Invariant of a worker on slice `l`. -/
def ThreadInv (process : α → Except PyErr β) (l : List α) (t : ThreadSt α β) : Prop :=
  if t.finished then t.out = sliceResults process l
  else t.out = [] ∧ ∃ pre, l = pre ++ t.todo ∧ pre.mapM process = .ok t.acc

theorem mapM_append_ok (process : α → Except PyErr β) (a b : List α) (ya : List β) (h : a.mapM process = .ok ya) :
    (a ++ b).mapM process = (b.mapM process).map (ya ++ ·) := by
  rw [List.mapM_append, h]
  cases hb : b.mapM process <;> rfl

theorem ThreadInv.step {process : α → Except PyErr β} {l : List α} {t : ThreadSt α β}
    (h : ThreadInv process l t) : ThreadInv process l (t.step process) := by
  unfold ThreadSt.step
  by_cases hf : t.finished
  · simp [hf, h]
  · simp only [hf, if_false, Bool.false_eq_true]
    unfold ThreadInv at h
    simp only [hf, if_false, Bool.false_eq_true] at h
    obtain ⟨ho, pre, hl, hp⟩ := h
    cases ht : t.todo with
    | nil =>
      simp only [ThreadInv, if_true, sliceResults]
      rw [hl, ht, List.append_nil, hp]
    | cons x xs =>
      cases hx : process x with
      | ok y =>
        simp only [ThreadInv, hx, if_false, Bool.false_eq_true]
        refine ⟨ho, pre ++ [x], ?_, ?_⟩
        · rw [hl, ht]; simp
        · rw [mapM_append_ok _ _ _ _ hp]
          simp [hx, bind, Except.bind, pure, Except.pure, Except.map]
      | error e =>
        simp only [ThreadInv, hx, if_true, sliceResults]
        rw [ho, hl, ht, mapM_append_ok _ _ _ _ hp]
        simp [hx, bind, Except.bind, Except.map]

/-- Invariant of the pool on slices `cs`. -/
structure PoolInv (process : α → Except PyErr β) (cs : List (List α)) (s : PoolSt α β) : Prop where
  threads : List.Forall₂ (ThreadInv process) cs s.threads
  joined : s.joined ≤ cs.length
  output : s.output = (cs.take s.joined).flatMap (sliceResults process)
  started : s.started ≤ cs.length

theorem forall₂_modify {R : α → β → Prop} {f : β → β} (hf : ∀ a b, R a b → R a (f b)) :
    ∀ {l : List α} {m : List β} (_ : List.Forall₂ R l m) (i : Nat), List.Forall₂ R l (m.modify i f)
  | _, _, .nil, _ => by simp
  | _, _, .cons h t, 0 => by simpa using ⟨hf _ _ h, t⟩
  | _, _, .cons h t, i + 1 => by simpa using ⟨h, forall₂_modify hf t i⟩

theorem PoolInv.init (process : α → Except PyErr β) (cs : List (List α)) : PoolInv process cs (PoolSt.init cs) where
  threads := by
    simp only [PoolSt.init]
    induction cs with
    | nil => simp
    | cons c cs ih =>
      simp only [List.map_cons, List.forall₂_cons]
      exact ⟨by simp [ThreadInv, pure, Except.pure], ih⟩
  joined := by simp [PoolSt.init]
  output := by simp [PoolSt.init]
  started := by simp [PoolSt.init]

theorem PoolInv.step {process : α → Except PyErr β} {cs : List (List α)} {s : PoolSt α β}
    (h : PoolInv process cs s) (m : Move) : PoolInv process cs (s.step process m) := by
  have hlen := h.threads.length_eq
  cases m with
  | main =>
    simp only [PoolSt.step]
    split
    · exact ⟨h.threads, h.joined, h.output, by simp only; omega⟩
    · split
      · exact h
      · rename_i t ht
        split
        · rename_i hfin
          obtain ⟨hj, hjt⟩ := List.getElem?_eq_some_iff.mp ht
          have hj' : s.joined < cs.length := by omega
          refine ⟨h.threads, by simp only; omega, ?_, h.started⟩
          have hinv : ThreadInv process cs[s.joined] t := by
            have := h.threads.get (i := s.joined) hj' hj
            simpa [hjt] using this
          simp only [ThreadInv, hfin, if_true] at hinv
          simp only [h.output, hinv, List.take_add_one, List.flatMap_append]
          simp [hj']
        · exact h
  | worker i =>
    simp only [PoolSt.step]
    split
    · exact ⟨forall₂_modify (R := ThreadInv process) (fun _ _ hb => hb.step) h.threads i, h.joined, h.output, h.started⟩
    · exact h

theorem PoolInv.run {process : α → Except PyErr β} {cs : List (List α)} {s : PoolSt α β}
    (h : PoolInv process cs s) (sched : List Move) : PoolInv process cs (s.run process sched) := by
  unfold PoolSt.run
  induction sched generalizing s with
  | nil => exact h
  | cons m ms ih => exact ih (h.step m)

/-- Remaining work of a worker. -/
def ThreadSt.work (t : ThreadSt α β) : Nat := if t.finished then 0 else t.todo.length + 1

/-- Remaining work of the pool. -/
def PoolSt.work (s : PoolSt α β) : Nat :=
  (s.threads.length - s.started) + (s.threads.length - s.joined) + (s.threads.map ThreadSt.work).sum

theorem ThreadSt.work_step {process : α → Except PyErr β} (t : ThreadSt α β) (h : t.finished = false) :
    (t.step process).work < t.work := by
  unfold ThreadSt.step
  simp only [h, Bool.false_eq_true, if_false]
  cases ht : t.todo with
  | nil => simp [ThreadSt.work, h]
  | cons x xs =>
    cases hx : process x with
    | ok y => simp [ThreadSt.work, h, ht, hx]
    | error e => simp [ThreadSt.work, h, hx]

theorem sum_map_modify_lt {γ} (w : γ → Nat) (f : γ → γ) :
    ∀ (l : List γ) (i : Nat) (t : γ), l[i]? = some t → w (f t) < w t → ((l.modify i f).map w).sum < (l.map w).sum
  | [], _, _, h, _ => by simp at h
  | a :: l, 0, t, h, hw => by
      simp at h; subst h
      simpa using hw
  | a :: l, i + 1, t, h, hw => by
      have := sum_map_modify_lt w f l i t (by simpa using h) hw
      simpa using this

theorem PoolInv.progress {process : α → Except PyErr β} {cs : List (List α)} {s : PoolSt α β}
    (h : PoolInv process cs s) : ∃ sched, (s.run process sched).returned := by
  generalize hn : s.work = n
  induction n using Nat.strong_induction_on generalizing s with
  | _ n ih =>
    have hlen := h.threads.length_eq
    by_cases hret : s.returned
    · exact ⟨[], hret⟩
    · suffices ∃ m, (s.step process m).work < s.work by
        obtain ⟨m, hm⟩ := this
        obtain ⟨sched, hs⟩ := ih _ (hn ▸ hm) (h.step m) rfl
        exact ⟨m :: sched, hs⟩
      by_cases hst : s.started < s.threads.length
      · refine ⟨.main, ?_⟩
        simp only [PoolSt.step, hst, if_true, PoolSt.work]
        omega
      · have hs1 := h.started
        have hj1 := h.joined
        have hj : s.joined < s.threads.length := by
          by_contra hc
          exact hret ⟨by omega, by omega⟩
        have hget : s.threads[s.joined]? = some s.threads[s.joined] := List.getElem?_eq_getElem hj
        by_cases hfin : (s.threads[s.joined]).finished = true
        · refine ⟨.main, ?_⟩
          simp only [PoolSt.step, hst, if_false, hget, hfin, if_true, PoolSt.work]
          omega
        · refine ⟨.worker s.joined, ?_⟩
          have hjs : s.joined < s.started := by omega
          simp only [PoolSt.step, hjs, if_true, PoolSt.work, List.length_modify]
          have := sum_map_modify_lt ThreadSt.work (ThreadSt.step process) s.threads s.joined _ hget
            (ThreadSt.work_step _ (by simpa using hfin))
          omega

theorem PoolInv.returned_output {process : α → Except PyErr β} {cs : List (List α)} {s : PoolSt α β}
    (h : PoolInv process cs s) (hr : s.returned) : s.output = cs.flatMap (sliceResults process) := by
  rw [h.output, hr.2, ← h.threads.length_eq, List.take_length]

theorem sliceResults_pure (f : α → β) (l : List α) : sliceResults (fun x => .ok (f x)) l = l.map f := by
  have : l.mapM (fun x => (Except.ok (f x) : Except PyErr β)) = .ok (l.map f) := by
    induction l with
    | nil => rfl
    | cons a l ih => simp [ih, bind, Except.bind, pure, Except.pure]
  simp [sliceResults, this]

end Model
