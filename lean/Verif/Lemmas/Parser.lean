import Verif.Model.Parser
import Verif.Spec.Parser
import Verif.Lemmas.Tree
import Verif.Lemmas.Text

/-! Invariants of the transition system. -/

namespace Model
open Py Spec

/-- `c` leaves the stack before `p`. -/
def Before (dead stack buffer : List Nat) (c p : Nat) : Prop :=
  [c, p].Sublist dead ∨ (c ∈ dead ∧ (p ∈ stack ∨ p ∈ buffer)) ∨ [c, p].Sublist stack

/-- Invariant of the parser: `dead` is the list of tokens popped so far, in order. -/
structure CoreInv (deps : List Dep) (dead stack buffer : List Nat) (arcs : List Arc) : Prop where
  nodup : (dead ++ stack ++ buffer).Nodup
  valid : ∀ i ∈ dead ++ stack ++ buffer, ∃ d, deps[i]? = some d ∧ d ≠ .NODEP
  stackDesc : stack.Pairwise (· > ·)
  bufAsc : buffer.Pairwise (· < ·)
  lt : ∀ s ∈ dead ++ stack, ∀ b ∈ buffer, s < b
  before : ∀ a ∈ arcs, Before dead stack buffer a.2.2 a.2.1
  ends : ∀ a ∈ arcs, ∀ b ∈ buffer, a.2.1 ≤ b
  cover : ∀ a ∈ arcs, ∀ s ∈ stack ++ buffer, ¬ Covers a.2 s
  noncross : ∀ a ∈ arcs, ∀ b ∈ arcs, ¬ Cross a.2 b.2
  leftDead : ∀ a ∈ arcs, a.2.2 < a.2.1 → a.2.2 ∈ dead
  rightNodup : ((arcs.filter fun a => a.2.1 < a.2.2).map fun a => a.2.2).Nodup
  leftNodup : ((arcs.filter fun a => a.2.2 < a.2.1).map fun a => a.2.2).Nodup
  label : ∀ a ∈ arcs, ∃ d, deps[a.2.2]? = some d ∧ a.1 = if d = .ROOT then .SPLIT else d

variable {deps : List Dep} {dead stack buffer : List Nat} {arcs : List Arc}

theorem Before.mem {c p : Nat} (h : Before dead stack buffer c p) :
    (c ∈ dead ∨ c ∈ stack) ∧ (p ∈ dead ∨ p ∈ stack ∨ p ∈ buffer) := by
  rcases h with h | ⟨h1, h2⟩ | h
  · exact ⟨Or.inl (h.subset (by simp)), Or.inl (h.subset (by simp))⟩
  · exact ⟨Or.inl h1, Or.inr h2⟩
  · exact ⟨Or.inr (h.subset (by simp)), Or.inr (Or.inl (h.subset (by simp)))⟩

theorem Before.shift {c p b : Nat} {bs : List Nat} (h : Before dead stack (b :: bs) c p) :
    Before dead (b :: stack) bs c p := by
  rcases h with h | ⟨h1, h2⟩ | h
  · exact Or.inl h
  · refine Or.inr (Or.inl ⟨h1, ?_⟩)
    rcases h2 with h2 | h2
    · exact Or.inl (List.mem_cons_of_mem _ h2)
    · rcases List.mem_cons.mp h2 with rfl | h2
      · exact Or.inl (by simp)
      · exact Or.inr h2
  · exact Or.inr (Or.inr (h.cons _))

theorem Before.pop {c p t : Nat} {s : List Nat} (h : Before dead (t :: s) buffer c p) :
    Before (dead ++ [t]) s buffer c p := by
  rcases h with h | ⟨h1, h2⟩ | h
  · exact Or.inl (h.trans (List.sublist_append_left _ _))
  · rcases h2 with h2 | h2
    · rcases List.mem_cons.mp h2 with rfl | h2
      · exact Or.inl ((List.singleton_sublist.mpr h1).append (List.Sublist.refl [p]))
      · exact Or.inr (Or.inl ⟨List.mem_append_left _ h1, Or.inl h2⟩)
    · exact Or.inr (Or.inl ⟨List.mem_append_left _ h1, Or.inr h2⟩)
  · cases h with
    | cons _ h => exact Or.inr (Or.inr h)
    | cons_cons _ h =>
      exact Or.inr (Or.inl ⟨by simp, Or.inl (List.singleton_sublist.mp h)⟩)

theorem CoreInv.shift {b : Nat} {bs : List Nat} (h : CoreInv deps dead stack (b :: bs) arcs) :
    CoreInv deps dead (b :: stack) bs arcs where
  nodup := by
    have : (dead ++ (b :: stack) ++ bs).Perm (dead ++ stack ++ b :: bs) := by
      rw [List.append_assoc, List.append_assoc]
      apply List.Perm.append_left
      exact (List.perm_middle (a := b) (l₁ := stack) (l₂ := bs)).symm
    exact this.nodup_iff.mpr h.nodup
  valid := by
    intro i hi
    apply h.valid i
    simp only [List.mem_append, List.mem_cons] at hi ⊢
    tauto
  stackDesc := by
    rw [List.pairwise_cons]
    refine ⟨?_, h.stackDesc⟩
    intro s hs
    exact h.lt s (List.mem_append_right _ hs) b (by simp)
  bufAsc := (List.pairwise_cons.mp h.bufAsc).2
  lt := by
    intro s hs c hc
    simp only [List.mem_append, List.mem_cons] at hs
    rcases hs with hs | rfl | hs
    · exact h.lt s (List.mem_append_left _ hs) c (by simp [hc])
    · exact (List.pairwise_cons.mp h.bufAsc).1 c hc
    · exact h.lt s (List.mem_append_right _ hs) c (by simp [hc])
  before := fun a ha => (h.before a ha).shift
  ends := fun a ha c hc => h.ends a ha c (by simp [hc])
  cover := by
    intro a ha s hs
    apply h.cover a ha
    simp only [List.mem_append, List.mem_cons] at hs ⊢
    tauto
  noncross := h.noncross
  leftDead := h.leftDead
  rightNodup := h.rightNodup
  leftNodup := h.leftNodup
  label := h.label

theorem CoreInv.pop {t : Nat} {s : List Nat} (h : CoreInv deps dead (t :: s) buffer arcs) :
    CoreInv deps (dead ++ [t]) s buffer arcs where
  nodup := by simpa [List.append_assoc] using h.nodup
  valid := by
    intro i hi
    apply h.valid i
    simp only [List.mem_append, List.mem_cons, List.not_mem_nil, or_false] at hi ⊢
    tauto
  stackDesc := (List.pairwise_cons.mp h.stackDesc).2
  bufAsc := h.bufAsc
  lt := by
    intro x hx
    apply h.lt
    simp only [List.mem_append, List.mem_cons, List.not_mem_nil, or_false] at hx ⊢
    tauto
  before := fun a ha => (h.before a ha).pop
  ends := h.ends
  cover := by
    intro a ha x hx
    apply h.cover a ha
    simp only [List.mem_append, List.mem_cons] at hx ⊢
    tauto
  noncross := h.noncross
  leftDead := fun a ha hl => List.mem_append_left _ (h.leftDead a ha hl)
  rightNodup := h.rightNodup
  leftNodup := h.leftNodup
  label := h.label

/-- No crossing is created by an arc between the stack top `t` and the buffer front `b`. -/
theorem CoreInv.new_noncross {t b : Nat} {s bs : List Nat} (h : CoreInv deps dead (t :: s) (b :: bs) arcs)
    (x : Nat × Nat) (hlo : lo x = t) (hhi : hi x = b) : ∀ a ∈ arcs, ¬ Cross a.2 x ∧ ¬ Cross x a.2 := by
  intro a ha
  have hc := h.cover a ha t (by simp)
  have he := h.ends a ha b (by simp)
  have hcb : a.2.2 < b := by
    rcases (h.before a ha).mem.1 with hm | hm
    · exact h.lt _ (List.mem_append_left _ hm) b (by simp)
    · exact h.lt _ (List.mem_append_right _ hm) b (by simp)
  have hhia : hi a.2 ≤ b := by unfold hi; omega
  unfold Covers at hc
  unfold Cross
  rw [hlo, hhi]
  omega

theorem CoreInv.top_lt {t b : Nat} {s bs : List Nat} (h : CoreInv deps dead (t :: s) (b :: bs) arcs) : t < b :=
  h.lt t (by simp) b (by simp)

theorem not_cross_self (x : Nat × Nat) : ¬ Cross x x := by unfold Cross; omega

theorem CoreInv.left {t b : Nat} {s bs : List Nat} {d : Dep} (h : CoreInv deps dead (t :: s) (b :: bs) arcs)
    (hd : ∃ e, deps[t]? = some e ∧ d = if e = .ROOT then .SPLIT else e) :
    CoreInv deps (dead ++ [t]) s (b :: bs) (arcs ++ [(d, b, t)]) := by
  have htb := h.top_lt
  have hp := h.pop
  have hnc := h.new_noncross (b, t) (by simp [lo]; omega) (by simp [hi]; omega)
  have hnd := h.nodup
  refine { hp with
    before := ?_, ends := ?_, cover := ?_, noncross := ?_, leftDead := ?_, rightNodup := ?_, leftNodup := ?_
    label := ?_ }
  · intro a ha
    rcases List.mem_append.mp ha with ha | ha
    · exact hp.before a ha
    · rw [List.mem_singleton.mp ha]
      exact Or.inr (Or.inl ⟨by simp, Or.inr (by simp)⟩)
  · intro a ha c hc
    rcases List.mem_append.mp ha with ha | ha
    · exact hp.ends a ha c hc
    · rw [List.mem_singleton.mp ha]
      rcases List.mem_cons.mp hc with rfl | hc
      · exact Nat.le_refl _
      · exact Nat.le_of_lt ((List.pairwise_cons.mp h.bufAsc).1 c hc)
  · intro a ha x hx
    rcases List.mem_append.mp ha with ha | ha
    · exact hp.cover a ha x hx
    · rw [List.mem_singleton.mp ha]
      simp only [Covers, lo, hi]
      rcases List.mem_append.mp hx with hx | hx
      · have := (List.pairwise_cons.mp h.stackDesc).1 x hx
        omega
      · rcases List.mem_cons.mp hx with rfl | hx
        · omega
        · have := (List.pairwise_cons.mp h.bufAsc).1 x hx
          omega
  · intro a ha c hc
    rcases List.mem_append.mp ha with ha | ha <;> rcases List.mem_append.mp hc with hc | hc
    · exact h.noncross a ha c hc
    · rw [List.mem_singleton.mp hc]; exact (hnc a ha).1
    · rw [List.mem_singleton.mp ha]; exact (hnc c hc).2
    · rw [List.mem_singleton.mp ha, List.mem_singleton.mp hc]; exact not_cross_self _
  · intro a ha hl
    rcases List.mem_append.mp ha with ha | ha
    · exact hp.leftDead a ha hl
    · rw [List.mem_singleton.mp ha]; simp
  · have : ¬ (b < t) := by omega
    simpa [List.filter_append, this] using h.rightNodup
  · rw [List.filter_append, List.map_append, List.nodup_append]
    refine ⟨h.leftNodup, by simp [htb], ?_⟩
    intro x hx y hy
    simp [htb] at hy
    subst hy
    rintro rfl
    obtain ⟨a, ha, hax⟩ := List.mem_map.mp hx
    rw [List.mem_filter] at ha
    have := h.leftDead a ha.1 (by simpa using ha.2)
    rw [hax] at this
    have hnd' := hnd
    rw [List.append_assoc, List.nodup_append] at hnd'
    exact hnd'.2.2 x this x (by simp) rfl
  · intro a ha
    rcases List.mem_append.mp ha with ha | ha
    · exact h.label a ha
    · rw [List.mem_singleton.mp ha]; exact hd

theorem CoreInv.right {t b : Nat} {s bs : List Nat} {d : Dep} (h : CoreInv deps dead (t :: s) (b :: bs) arcs)
    (hd : ∃ e, deps[b]? = some e ∧ d = if e = .ROOT then .SPLIT else e) :
    CoreInv deps dead (b :: t :: s) bs (arcs ++ [(d, t, b)]) := by
  have htb := h.top_lt
  have hp := h.shift
  have hnc := h.new_noncross (t, b) (by simp [lo]; omega) (by simp [hi]; omega)
  refine { hp with
    before := ?_, ends := ?_, cover := ?_, noncross := ?_, leftDead := ?_, rightNodup := ?_, leftNodup := ?_
    label := ?_ }
  · intro a ha
    rcases List.mem_append.mp ha with ha | ha
    · exact hp.before a ha
    · rw [List.mem_singleton.mp ha]
      exact Or.inr (Or.inr (by simp))
  · intro a ha c hc
    rcases List.mem_append.mp ha with ha | ha
    · exact hp.ends a ha c hc
    · rw [List.mem_singleton.mp ha]
      exact Nat.le_of_lt (h.lt t (by simp) c (by simp [hc]))
  · intro a ha x hx
    rcases List.mem_append.mp ha with ha | ha
    · exact hp.cover a ha x hx
    · rw [List.mem_singleton.mp ha]
      simp only [Covers, lo, hi]
      simp only [List.mem_append, List.mem_cons] at hx
      rcases hx with (rfl | rfl | hx) | hx
      · omega
      · omega
      · have := (List.pairwise_cons.mp h.stackDesc).1 x hx
        omega
      · have := (List.pairwise_cons.mp h.bufAsc).1 x hx
        omega
  · intro a ha c hc
    rcases List.mem_append.mp ha with ha | ha <;> rcases List.mem_append.mp hc with hc | hc
    · exact h.noncross a ha c hc
    · rw [List.mem_singleton.mp hc]; exact (hnc a ha).1
    · rw [List.mem_singleton.mp ha]; exact (hnc c hc).2
    · rw [List.mem_singleton.mp ha, List.mem_singleton.mp hc]; exact not_cross_self _
  · intro a ha hl
    rcases List.mem_append.mp ha with ha | ha
    · exact hp.leftDead a ha hl
    · rw [List.mem_singleton.mp ha] at hl
      simp only at hl
      omega
  · rw [List.filter_append, List.map_append, List.nodup_append]
    refine ⟨h.rightNodup, by simp [htb], ?_⟩
    intro x hx y hy
    simp [htb] at hy
    subst hy
    rintro rfl
    obtain ⟨a, ha, hax⟩ := List.mem_map.mp hx
    rw [List.mem_filter] at ha
    rcases (h.before a ha.1).mem.1 with hm | hm
    · have := h.lt _ (List.mem_append_left _ hm) x (by simp)
      omega
    · have := h.lt _ (List.mem_append_right _ hm) x (by simp)
      omega
  · have : ¬ (b < t) := by omega
    simpa [List.filter_append, this] using h.leftNodup
  · intro a ha
    rcases List.mem_append.mp ha with ha | ha
    · exact h.label a ha
    · rw [List.mem_singleton.mp ha]; exact hd

/-! ### The parse object -/

/-- Invariant of a parse object. -/
structure ParseInv {X} (p : Parse X) : Prop where
  core : ∃ dead, CoreInv p.deps dead p.stack p.buffer p.arcs
  ne : p.buffer ≠ [] → p.stack ≠ []

variable {X : Type}

/-- Remaining work: every transition decreases it. -/
def Parse.work (p : Parse X) : Nat := 2 * p.buffer.length + p.stack.length

theorem index_of_getElem? {α} {l : List α} {i : Nat} {x : α} (h : l[i]? = some x) : index l (i : Int) = .ok x := by
  rw [index_nat]
  obtain ⟨hi, hx⟩ := List.getElem?_eq_some_iff.mp h
  simp [hi, hx]

theorem pdep_ok {p : Parse X} {i : Nat} {e : Dep} (h : p.deps[i]? = some e) :
    p.pdep i = .ok (if e = .ROOT then .SPLIT else e) := by
  simp [Parse.pdep, index_of_getElem? h, bind, Except.bind, pure, Except.pure]

/-- Every transition on an incomplete parse succeeds, keeps the invariant and decreases the work. -/
theorem ParseInv.step {p : Parse X} (h : ParseInv p) (hb : p.buffer ≠ []) (tr : Trans) :
    ∃ p', p.registerTransition tr = .ok p' ∧ ParseInv p' ∧ p'.work < p.work ∧
      p'.deps = p.deps ∧ p'.tags = p.tags ∧ p'.mats = p.mats := by
  obtain ⟨mats, tags, deps, stack, buffer, arcs⟩ := p
  obtain ⟨⟨dead, hc⟩, hne⟩ := h
  simp only at hb hne hc
  obtain ⟨b, bs, rfl⟩ := List.exists_cons_of_ne_nil hb
  obtain ⟨t, s, rfl⟩ := List.exists_cons_of_ne_nil (hne hb)
  obtain ⟨et, het, _⟩ := hc.valid t (by simp)
  obtain ⟨eb, heb, _⟩ := hc.valid b (by simp)
  have hpt := pdep_ok (p := ⟨mats, tags, deps, t :: s, b :: bs, arcs⟩) het
  have hpb := pdep_ok (p := ⟨mats, tags, deps, t :: s, b :: bs, arcs⟩) heb
  cases tr with
  | LEFT =>
    have hl := hc.left (d := if et = .ROOT then .SPLIT else et) ⟨et, het, rfl⟩
    simp only [Parse.registerTransition, Parse.top, Parse.front, hpt, bind, Except.bind, Parse.reduce]
    by_cases hs : s = []
    · subst hs
      refine ⟨_, by simp only [if_true, Parse.shift]; rfl, ⟨⟨_, hl.shift⟩, by simp⟩, ?_, rfl, rfl, rfl⟩
      simp only [Parse.work, List.length_cons, List.length_nil]; omega
    · simp only [hs, if_false]
      refine ⟨_, rfl, ⟨⟨_, hl⟩, fun _ => hs⟩, ?_, rfl, rfl, rfl⟩
      simp [Parse.work]
  | RIGHT =>
    have hr := hc.right (d := if eb = .ROOT then .SPLIT else eb) ⟨eb, heb, rfl⟩
    simp only [Parse.registerTransition, Parse.top, Parse.front, hpb, bind, Except.bind, Parse.shift]
    refine ⟨_, rfl, ⟨⟨_, hr⟩, by simp⟩, ?_, rfl, rfl, rfl⟩
    simp only [Parse.work, List.length_cons]; omega
  | REDUCE =>
    have hl := hc.pop
    simp only [Parse.registerTransition, Parse.reduce]
    by_cases hs : s = []
    · subst hs
      refine ⟨_, by simp only [if_true, Parse.shift]; rfl, ⟨⟨_, hl.shift⟩, by simp⟩, ?_, rfl, rfl, rfl⟩
      simp only [Parse.work, List.length_cons, List.length_nil]; omega
    · simp only [hs, if_false]
      refine ⟨_, rfl, ⟨⟨_, hl⟩, fun _ => hs⟩, ?_, rfl, rfl, rfl⟩
      simp [Parse.work]
  | SHIFT =>
    simp only [Parse.registerTransition, Parse.shift]
    refine ⟨_, rfl, ⟨⟨_, hc.shift⟩, by simp⟩, ?_, rfl, rfl, rfl⟩
    simp only [Parse.work, List.length_cons]; omega

/-! ### Construction -/

theorem mapM_ok_of_forall {α β : Type} {f : α → Except PyErr β} {l : List α} (h : ∀ x ∈ l, ∃ y, f x = .ok y) :
    ∃ ys, l.mapM f = .ok ys ∧ ys.length = l.length := by
  induction l with
  | nil => exact ⟨[], rfl, rfl⟩
  | cons a l ih =>
    obtain ⟨y, hy⟩ := h a (by simp)
    obtain ⟨ys, hys, hl⟩ := ih fun x hx => h x (by simp [hx])
    exact ⟨y :: ys, by simp [hy, hys, bind, Except.bind, pure, Except.pure], by simp [hl]⟩

theorem filterMapM_ok {α β : Type} {f : α → Except PyErr (Option β)} {g : α → Option β} {l : List α}
    (h : ∀ x ∈ l, f x = .ok (g x)) : l.filterMapM f = .ok (l.filterMap g) := by
  have key : ∀ (l : List α) (acc : List β), (∀ x ∈ l, f x = .ok (g x)) →
      List.filterMapM.loop f l acc = .ok (acc.reverse ++ l.filterMap g) := by
    intro l
    induction l with
    | nil => intro acc _; simp [List.filterMapM.loop, pure, Except.pure]
    | cons a l ih =>
      intro acc h
      have ha := h a (by simp)
      have hl := fun acc => ih acc fun x hx => h x (by simp [hx])
      cases hg : g a with
      | none => simp [List.filterMapM.loop, ha, hg, bind, Except.bind, hl]
      | some y => simp [List.filterMapM.loop, ha, hg, bind, Except.bind, hl]
  have := key l [] h
  simpa [List.filterMapM] using this

/-- The buffer of a fresh parse. -/
def validOf (deps : List Dep) : List Nat :=
  (List.range deps.length).filter fun i => decide (deps[i]? ≠ some .NODEP)

theorem validOf_pairwise (deps : List Dep) : (validOf deps).Pairwise (· < ·) :=
  List.Pairwise.filter _ List.pairwise_lt_range

theorem mem_validOf {deps : List Dep} {i : Nat} : i ∈ validOf deps ↔ ∃ d, deps[i]? = some d ∧ d ≠ .NODEP := by
  simp only [validOf, List.mem_filter, List.mem_range, decide_eq_true_eq]
  constructor
  · rintro ⟨h1, h2⟩
    refine ⟨deps[i], List.getElem?_eq_getElem h1, ?_⟩
    intro e
    rw [List.getElem?_eq_getElem h1, e] at h2
    exact h2 rfl
  · rintro ⟨d, h1, h2⟩
    obtain ⟨h3, _⟩ := List.getElem?_eq_some_iff.mp h1
    refine ⟨h3, ?_⟩
    rw [h1]
    simpa using h2

/-- A fresh parse for the given decoded tags and dependencies. -/
def freshParse (mats : X) (tags : List Tag) (deps : List Dep) : Parse X :=
  match validOf deps with
  | [] => { mats := mats, tags := tags, deps := deps, stack := [], buffer := [], arcs := [] }
  | b :: bs => { mats := mats, tags := tags, deps := deps, stack := [b], buffer := bs, arcs := [] }

theorem freshParse_inv (mats : X) (tags : List Tag) (deps : List Dep) : ParseInv (freshParse mats tags deps) := by
  have base : CoreInv deps [] [] (validOf deps) [] :=
    { nodup := by
        have : (validOf deps).Nodup := (validOf_pairwise deps).imp (fun h => Nat.ne_of_lt h)
        simpa using this
      valid := by intro i hi; exact mem_validOf.mp (by simpa using hi)
      stackDesc := by simp
      bufAsc := validOf_pairwise deps
      lt := by simp
      before := by simp
      ends := by simp
      cover := by simp
      noncross := by simp
      leftDead := by simp
      rightNodup := by simp
      leftNodup := by simp
      label := by simp }
  unfold freshParse
  cases hv : validOf deps with
  | nil => exact ⟨⟨[], by rw [hv] at base; exact base⟩, by simp⟩
  | cons b bs => exact ⟨⟨[], by rw [hv] at base; exact base.shift⟩, by simp⟩

theorem freshParse_fields (mats : X) (tags : List Tag) (deps : List Dep) :
    (freshParse mats tags deps).mats = mats ∧ (freshParse mats tags deps).tags = tags ∧
    (freshParse mats tags deps).deps = deps := by
  unfold freshParse
  split <;> simp

theorem freshParse_work (mats : X) (tags : List Tag) (deps : List Dep) :
    (freshParse mats tags deps).work ≤ 2 * deps.length := by
  have : (validOf deps).length ≤ deps.length := by
    have := List.length_filter_le (fun i => decide (deps[i]? ≠ some .NODEP)) (List.range deps.length)
    rw [List.length_range] at this
    exact this
  unfold freshParse
  cases hv : validOf deps with
  | nil => simp [Parse.work]
  | cons b bs =>
    rw [hv] at this
    simp [Parse.work] at this ⊢
    omega

/-- `_Parse(...)` succeeds on valid predictions for `n` tokens, giving the fresh parse. -/
theorem Parse.new_ok (mats : X) (n : Nat) (tagCodes depCodes : List Nat)
    (ht : ∀ c ∈ tagCodes, c < 17) (hd : ∀ c ∈ depCodes, c < 25) (hl : n + 1 ≤ depCodes.length)
    (hlt : n + 1 ≤ tagCodes.length) :
    ∃ tags deps, Parse.new mats (n + 2) tagCodes depCodes = .ok (freshParse mats tags deps) ∧
      tags.length = n ∧ deps.length = n ∧
      (slice tagCodes 1 ((n : Int) + 1)).mapM Tag.ofCode = .ok tags ∧
      (slice depCodes 1 ((n : Int) + 1)).mapM Dep.ofCode = .ok deps := by
  have hsl : ∀ l : List Nat, slice l 1 ((n : Int) + 1) = (l.take (n + 1)).drop 1 := by
    intro l
    have := slice_nat l 1 (n + 1)
    push_cast at this
    exact this
  have hsub : ∀ l : List Nat, ∀ c ∈ slice l 1 ((n : Int) + 1), c ∈ l := by
    intro l c hc
    rw [hsl] at hc
    exact List.mem_of_mem_take (List.mem_of_mem_drop hc)
  obtain ⟨tags, h1, h1l⟩ := mapM_ok_of_forall (f := Tag.ofCode) (l := slice tagCodes 1 ((n : Int) + 1)) (by
    intro c hc
    have : c < 17 := ht c (hsub _ c hc)
    have hlen : c < Tag.all.length := this
    exact ⟨Tag.all[c], by simp [Tag.ofCode, hlen]⟩)
  obtain ⟨deps, h2, h2l⟩ := mapM_ok_of_forall (f := Dep.ofCode) (l := slice depCodes 1 ((n : Int) + 1)) (by
    intro c hc
    have : c < 25 := hd c (hsub _ c hc)
    have hlen : c < Dep.all.length := this
    exact ⟨Dep.all[c], by simp [Dep.ofCode, hlen]⟩)
  have hdl : deps.length = n := by
    rw [h2l, hsl, List.length_drop, List.length_take]; omega
  have htl : tags.length = n := by
    rw [h1l, hsl, List.length_drop, List.length_take]; omega
  refine ⟨tags, deps, ?_, htl, hdl, h1, h2⟩
  have e1 : (((n + 2 : Nat) : Int) - 1) = (n : Int) + 1 := by push_cast; omega
  have hbuf : (List.range n).filterMapM (fun (i : Nat) => do
      let d ← index deps (i : Int)
      return if d ≠ Dep.NODEP then some i else none) = .ok (validOf deps) := by
    rw [filterMapM_ok (g := fun i : Nat => if deps[i]? ≠ some Dep.NODEP then some i else none)]
    · congr 1
      rw [validOf, hdl]
      have : (fun i : Nat => if deps[i]? ≠ some Dep.NODEP then some i else none) =
          Option.guard (fun i => decide (deps[i]? ≠ some Dep.NODEP)) := by
        funext i
        simp only [Option.guard, decide_eq_true_eq]
      rw [this, List.filterMap_eq_filter]
    · intro i hi
      rw [List.mem_range] at hi
      have hi' : i < deps.length := by omega
      rw [index_of_getElem? (List.getElem?_eq_getElem hi')]
      simp only [bind, Except.bind, pure, Except.pure, List.getElem?_eq_getElem hi', Except.ok.injEq]
      by_cases hx : deps[i] = .NODEP <;> simp [hx]
  unfold Parse.new
  rw [e1, h1]
  simp only [bind, Except.bind]
  rw [h2]
  simp only
  have e2 : n + 2 - 2 = n := by omega
  rw [e2]
  simp only [bind, Except.bind] at hbuf
  rw [hbuf]
  simp only [freshParse]
  cases hv : validOf deps with
  | nil => simp [pure, Except.pure]
  | cons b bs => simp [Parse.shift]

theorem complete_iff {p : Parse X} : p.complete = true ↔ p.buffer = [] := by
  simp [Parse.complete]

theorem runTrans_inv {p : Parse X} (h : ParseInv p) (ts : List Trans) :
    ∃ p', runTrans p ts = .ok p' ∧ ParseInv p' ∧ p'.deps = p.deps ∧ p'.tags = p.tags ∧ p'.mats = p.mats ∧
      (p.work ≤ ts.length + p.stack.length → p'.complete = true ∨ p'.work + ts.length ≤ p.work) := by
  induction ts generalizing p with
  | nil => exact ⟨p, rfl, h, rfl, rfl, rfl, fun _ => Or.inr (by simp)⟩
  | cons tr ts ih =>
    unfold runTrans
    by_cases hc : p.complete = true
    · simp only [hc, if_true]
      exact ⟨p, rfl, h, rfl, rfl, rfl, fun _ => Or.inl hc⟩
    · simp only [hc, if_false, Bool.false_eq_true]
      have hb : p.buffer ≠ [] := fun e => hc (complete_iff.mpr e)
      obtain ⟨p1, h1, h2, h3, h4, h5, h6⟩ := h.step hb tr
      obtain ⟨p2, g1, g2, g3, g4, g5, g6⟩ := ih h2
      refine ⟨p2, by simp [h1, bind, Except.bind, g1], g2, g3.trans h4, g4.trans h5, g5.trans h6, ?_⟩
      intro _
      by_cases hc2 : p2.complete = true
      · exact Or.inl hc2
      · right
        -- the remaining transitions were all used
        have key : ∀ (q : Parse X) (ts : List Trans) (q' : Parse X), ParseInv q → runTrans q ts = .ok q' →
            q'.complete = true ∨ q'.work + ts.length ≤ q.work := by
          intro q ts
          induction ts generalizing q with
          | nil => intro q' _ he; cases he; right; simp
          | cons tr ts ih =>
            intro q' hq he
            unfold runTrans at he
            by_cases hcq : q.complete = true
            · simp only [hcq, if_true] at he; cases he; exact Or.inl hcq
            · simp only [hcq, if_false, Bool.false_eq_true] at he
              have hbq : q.buffer ≠ [] := fun e => hcq (complete_iff.mpr e)
              obtain ⟨q1, k1, k2, k3, _⟩ := hq.step hbq tr
              simp only [k1, bind, Except.bind] at he
              rcases ih q1 q' k2 he with hh | hh
              · exact Or.inl hh
              · right; simp only [List.length_cons]; omega
        rcases key p1 ts p2 h2 g1 with hh | hh
        · exact absurd hh hc2
        · simp only [List.length_cons]; omega

/-- With at least as many transitions as work, the parse is complete. -/
theorem runTrans_complete {p : Parse X} (h : ParseInv p) :
    ∀ (ts : List Trans) (p' : Parse X), runTrans p ts = .ok p' → p.work ≤ ts.length → p'.complete = true := by
  intro ts
  induction ts generalizing p with
  | nil =>
    intro p' he hw
    cases he
    simp [Parse.work] at hw
    rw [complete_iff]
    exact hw.1
  | cons tr ts ih =>
    intro p' he hw
    unfold runTrans at he
    by_cases hc : p.complete = true
    · simp only [hc, if_true] at he; cases he; exact hc
    · simp only [hc, if_false, Bool.false_eq_true] at he
      have hb : p.buffer ≠ [] := fun e => hc (complete_iff.mpr e)
      obtain ⟨p1, h1, h2, h3, _⟩ := h.step hb tr
      simp only [h1, bind, Except.bind] at he
      exact ih h2 p' he (by simp only [List.length_cons] at hw; omega)

/-! ### Consequences of the invariant -/

theorem CoreInv.acyclic (h : CoreInv deps dead stack buffer arcs) : Acyclic (HasArc arcs) := by
  -- position in dead ++ stack ++ buffer decreases from parent to child
  have key : ∀ c p, Before dead stack buffer c p → [c, p].Sublist (dead ++ stack ++ buffer) := by
    intro c p hb
    rcases hb with hb | ⟨h1, h2⟩ | hb
    · exact hb.trans ((List.sublist_append_left _ _).trans (List.sublist_append_left _ _))
    · have h3 : [c].Sublist dead := List.singleton_sublist.mpr h1
      rw [List.append_assoc]
      have h4 : [p].Sublist (stack ++ buffer) := by
        rw [List.singleton_sublist, List.mem_append]
        exact h2
      exact h3.append h4
    · exact hb.trans ((List.sublist_append_right _ _).trans (List.sublist_append_left _ _))
  have pw : ∀ l : List Nat, l.Nodup → ∀ c p, [c, p].Sublist l → l.idxOf c < l.idxOf p := by
    intro l hl c p hs
    induction l with
    | nil => cases hs
    | cons a l ih =>
      rw [List.nodup_cons] at hl
      cases hs with
      | cons _ hs =>
        have hc : c ∈ l := hs.subset (by simp)
        have hp : p ∈ l := hs.subset (by simp)
        have e1 : a ≠ c := fun e => hl.1 (e ▸ hc)
        have e2 : a ≠ p := fun e => hl.1 (e ▸ hp)
        rw [List.idxOf_cons_ne _ e1, List.idxOf_cons_ne _ e2]
        exact Nat.succ_lt_succ (ih hl.2 hs)
      | cons_cons _ hs =>
        have hp : p ∈ l := List.singleton_sublist.mp hs
        have e2 : c ≠ p := fun e => hl.1 (e ▸ hp)
        rw [List.idxOf_cons_self, List.idxOf_cons_ne _ e2]
        exact Nat.succ_pos _
  have hsw : Acyclic fun c p => HasArc arcs p c := by
    apply acyclic_of_rank (fun n => (dead ++ stack ++ buffer).idxOf n)
    rintro c p ⟨d, ha⟩
    exact pw _ h.nodup c p (key c p (h.before _ ha))
  intro n hn
  apply hsw n
  rw [← Relation.transGen_swap]
  exact hn

theorem CoreInv.ne (h : CoreInv deps dead stack buffer arcs) : ∀ a ∈ arcs, a.2.1 ≠ a.2.2 := by
  intro a ha e
  obtain ⟨d, p, c⟩ := a
  simp only at e
  subst e
  exact h.acyclic p (Relation.TransGen.single ⟨d, ha⟩)

theorem rootOf_spec (arcs : List Arc) (hac : Acyclic (HasArc arcs)) :
    (rootOf arcs = none ↔ arcs = []) ∧
    ∀ r, rootOf arcs = some r → (∀ a ∈ arcs, a.2.2 ≠ r) ∧ (∃ a ∈ arcs, a.2.1 = r) ∧
      ∀ i, (∃ a ∈ arcs, a.2.1 = i) → (∀ a ∈ arcs, a.2.2 ≠ i) → r ≤ i := by
  have hmem : ∀ i, i ∈ ((arcs.flatMap fun a => [a.2.1, a.2.2]).filter fun i => decide (i ∉ arcs.map fun a => a.2.2)) ↔
      (∃ a ∈ arcs, a.2.1 = i) ∧ ∀ a ∈ arcs, a.2.2 ≠ i := by
    intro i
    simp only [List.mem_filter, List.mem_flatMap, List.mem_cons, List.not_mem_nil, or_false, decide_eq_true_eq,
      List.mem_map, not_exists, not_and]
    constructor
    · rintro ⟨⟨a, ha, h1⟩, h2⟩
      refine ⟨?_, h2⟩
      rcases h1 with rfl | rfl
      · exact ⟨a, ha, rfl⟩
      · exact absurd rfl (h2 a ha)
    · rintro ⟨⟨a, ha, h1⟩, h2⟩
      exact ⟨⟨a, ha, Or.inl h1.symm⟩, h2⟩
  constructor
  · constructor
    · intro hn
      by_contra hne
      obtain ⟨a, as, rfl⟩ := List.exists_cons_of_ne_nil hne
      rw [rootOf, List.min?_eq_none_iff] at hn
      -- climb from the first parent: bounded by acyclicity
      set arcs := a :: as with harcs
      have climb : ∀ (k : Nat) (n : Nat) (visited : List Nat), visited.Nodup →
          (∀ v ∈ visited, v ∈ arcs.map fun a => a.2.2) →
          (∀ v ∈ visited, Relation.TransGen (fun c p => HasArc arcs p c) v n) →
          (∃ x ∈ arcs, x.2.1 = n) → arcs.length < k + visited.length → False := by
        intro k
        induction k with
        | zero =>
          intro n visited hnd hk _ _ hlen
          have := (List.subperm_of_subset hnd hk).length_le
          rw [List.length_map] at this
          omega
        | succ k ih =>
          intro n visited hnd hk hr hex hlen
          have hx : n ∉ ((arcs.flatMap fun a => [a.2.1, a.2.2]).filter
              fun i => decide (i ∉ arcs.map fun a => a.2.2)) := by rw [hn]; simp
          rw [hmem] at hx
          have : ∃ x ∈ arcs, x.2.2 = n := by
            by_contra hc
            push Not at hc
            exact hx ⟨hex, hc⟩
          obtain ⟨⟨d, p, c⟩, hxa, hxe⟩ := this
          simp only at hxe
          subst hxe
          have hnv : c ∉ visited := by
            intro hv
            have := hr c hv
            apply hac c
            rw [← Relation.transGen_swap] at this
            exact this
          apply ih p (c :: visited)
          · exact List.nodup_cons.mpr ⟨hnv, hnd⟩
          · intro v hv
            rcases List.mem_cons.mp hv with rfl | hv
            · exact List.mem_map.mpr ⟨_, hxa, rfl⟩
            · exact hk v hv
          · intro v hv
            rcases List.mem_cons.mp hv with rfl | hv
            · exact Relation.TransGen.single ⟨d, hxa⟩
            · exact (hr v hv).tail ⟨d, hxa⟩
          · exact ⟨_, hxa, rfl⟩
          · simp only [List.length_cons] at hlen ⊢; omega
      exact climb (arcs.length + 1) a.2.1 [] (by simp) (by simp) (by simp) ⟨a, by simp [harcs], rfl⟩ (by simp)
    · rintro rfl
      rfl
  · intro r hr
    rw [rootOf, List.min?_eq_some_iff] at hr
    obtain ⟨h1, h2⟩ := hr
    have := (hmem r).mp h1
    refine ⟨this.2, this.1, ?_⟩
    intro i hi1 hi2
    exact h2 i ((hmem i).mpr ⟨hi1, hi2⟩)

end Model
