import Verif.Spec.Semantics
import Verif.Props.Text
import Mathlib.Algebra.Group.Nat.Even

/-! Lemmas on the extraction of semantic tuples. -/

namespace Model
open Py Spec

/-- The result is a list of exactly the `x` with `P x`. -/
def Gives {β : Type} (m : Except PyErr (List β)) (P : β → Prop) : Prop := ∃ l, m = .ok l ∧ ∀ x, x ∈ l ↔ P x

section
variable {α β : Type} {P Q : β → Prop}

theorem Gives.congr {m : Except PyErr (List β)} (h : Gives m P) (he : ∀ x, P x ↔ Q x) : Gives m Q := by
  obtain ⟨l, h1, h2⟩ := h
  exact ⟨l, h1, fun x => (h2 x).trans (he x)⟩

theorem Gives.none : Gives (.ok [] : Except PyErr (List β)) fun _ => False := ⟨[], rfl, by simp⟩

theorem Gives.one (b : β) : Gives (.ok [b]) fun x => x = b := ⟨[b], rfl, by simp⟩

theorem Gives.append {m m' : Except PyErr (List β)} (h : Gives m P) (h' : Gives m' Q) :
    Gives (do let a ← m; let b ← m'; return a ++ b) fun x => P x ∨ Q x := by
  obtain ⟨l, rfl, h2⟩ := h
  obtain ⟨l', rfl, h2'⟩ := h'
  exact ⟨l ++ l', rfl, fun x => by rw [List.mem_append, h2, h2']⟩

theorem Gives.append' {m₁ m₂ m₃ : Except PyErr (List β)} {P₁ P₂ P₃ : β → Prop} (h₁ : Gives m₁ P₁) (h₂ : Gives m₂ P₂)
    (h₃ : Gives m₃ P₃) :
    Gives (do let a ← m₁; let b ← m₂; let c ← m₃; return a ++ b ++ c) fun x => P₁ x ∨ P₂ x ∨ P₃ x := by
  obtain ⟨l₁, rfl, k₁⟩ := h₁
  obtain ⟨l₂, rfl, k₂⟩ := h₂
  obtain ⟨l₃, rfl, k₃⟩ := h₃
  exact ⟨l₁ ++ l₂ ++ l₃, rfl, fun x => by simp only [List.mem_append, k₁, k₂, k₃, or_assoc]⟩

theorem Gives.append4 {m₁ m₂ m₃ m₄ : Except PyErr (List β)} {P₁ P₂ P₃ P₄ : β → Prop} (h₁ : Gives m₁ P₁)
    (h₂ : Gives m₂ P₂) (h₃ : Gives m₃ P₃) (h₄ : Gives m₄ P₄) :
    Gives (do let a ← m₁; let b ← m₂; let c ← m₃; let d ← m₄; return a ++ (b ++ (c ++ d)))
      fun x => P₁ x ∨ P₂ x ∨ P₃ x ∨ P₄ x := by
  obtain ⟨l₁, rfl, k₁⟩ := h₁
  obtain ⟨l₂, rfl, k₂⟩ := h₂
  obtain ⟨l₃, rfl, k₃⟩ := h₃
  obtain ⟨l₄, rfl, k₄⟩ := h₄
  exact ⟨l₁ ++ (l₂ ++ (l₃ ++ l₄)), rfl, fun x => by simp only [List.mem_append, k₁, k₂, k₃, k₄]⟩

theorem Gives.cons {m : Except PyErr (List β)} (b : β) (h : Gives m P) :
    Gives (do let a ← m; pure (b :: a)) fun x => x = b ∨ P x := by
  obtain ⟨l, rfl, h2⟩ := h
  exact ⟨b :: l, rfl, fun x => by rw [List.mem_cons, h2]⟩

theorem Gives.collect {l : List α} {f : α → Except PyErr (List β)} {P : α → β → Prop}
    (h : ∀ x ∈ l, Gives (f x) (P x)) : Gives (collect l f) fun b => ∃ x ∈ l, P x b := by
  induction l with
  | nil => exact ⟨[], rfl, by simp⟩
  | cons x l ih =>
    have h1 := h x (by simp)
    have h2 := ih fun y hy => h y (List.mem_cons_of_mem _ hy)
    exact (h1.append h2).congr fun b => by simp

theorem Gives.ite {c : Prop} [Decidable c] {m m' : Except PyErr (List β)} (h : c → Gives m P) (h' : ¬ c → Gives m' Q) :
    Gives (if c then m else m') fun x => (c ∧ P x) ∨ (¬ c ∧ Q x) := by
  by_cases hc : c
  · rw [if_pos hc]; exact (h hc).congr fun x => by simp [hc]
  · rw [if_neg hc]; exact (h' hc).congr fun x => by simp [hc]

end

theorem xnor_affirmed (a b : Bool) (l : List Bool) : xnor (a :: b :: l) = .ok (affirmed (a :: b :: l)) := by
  rw [Props.C11_xnor_parity _ (by simp)]
  simp only [affirmed, Nat.even_iff]

theorem nounArgCode_spec (n : Node) : NounCode n.tag (nounArgCode n) ∧ nounArgCode n ∈ nounCodes := by
  unfold nounArgCode
  cases n.tag <;> refine ⟨by first | exact .propn | exact .pron | exact .num | exact .sym | exact .noun nofun nofun nofun nofun, by decide⟩

theorem nounCode_eq {n : Node} {c : Str} (hc : NounCode n.tag c) : c = nounArgCode n := by
  unfold nounArgCode
  generalize n.tag = t at hc
  cases hc <;> simp_all

theorem active_iff (n : Node) (w : Str) : n.active = some w ↔ ActiveVerb n w := by
  unfold Node.active ActiveVerb
  rcases n.activeVerb with _ | _ | ⟨c, w'⟩
  · simp
  · simp only [reduceCtorEq, Option.some.injEq, false_iff, not_and, not_not]
    exact fun e => e.symm
  · simp only [Option.some.injEq, iff_self_and]
    rintro rfl; simp

theorem adjCode_iff (n : Node) (c : Str) : AdjCode n c ↔ c = adjArgCode n := by
  unfold adjArgCode
  cases ha : n.active with
  | none =>
    constructor
    · rintro (h | h)
      · rw [← active_iff, ha] at h; cases h
      · rfl
    · rintro rfl
      refine .adj fun w hw => ?_
      rw [← active_iff, ha] at hw; cases hw
  | some w =>
    constructor
    · rintro (h | h)
      · rfl
      · exact absurd ((active_iff _ _).mp ha) (h w)
    · rintro rfl; exact .pp ((active_iff _ _).mp ha)

theorem propCode_iff (n : Node) (c : Str) : PropCode n c ↔ c = propArgCode n := by
  unfold PropCode propArgCode
  by_cases ht : n.tag = .ADJ
  · simp [ht, adjCode_iff]
  · simp only [ht, false_and, ne_eq, not_false_eq_true, true_and, false_or, if_false]
    exact ⟨nounCode_eq, fun e => e ▸ (nounArgCode_spec n).1⟩

theorem adjArgCode_mem (n : Node) : adjArgCode n ∈ propCodes := by
  unfold adjArgCode; split <;> decide

theorem nounCodes_sub {c : Str} (h : c ∈ nounCodes) : c ∈ propCodes := by simp [propCodes, h]

theorem propArgCode_mem (n : Node) : propArgCode n ∈ propCodes := by
  unfold propArgCode; split
  · exact adjArgCode_mem n
  · exact nounCodes_sub (nounArgCode_spec n).2

theorem propCodes_sub {c : Str} (h : c ∈ propCodes) : c ∈ argCodes := by
  simp only [propCodes, nounCodes, List.cons_append, List.nil_append, List.mem_cons, List.not_mem_nil, or_false] at h
  rcases h with rfl | rfl | rfl | rfl | rfl | rfl | rfl <;> decide

theorem new_ok {w c : Str} {b : Bool} (h : c ∈ argCodes) : Argument.new w c b = .ok ⟨w, c, b⟩ := by
  simp [Argument.new, h]

section
variable (pp : Str → Str) (h : Heap) (nodes : List Ref)

/-- The argument of a nominal. -/
def nArg (r : Ref) : Argument := ⟨(h.node r).canon, nounArgCode (h.node r), true⟩
/-- The argument of a property. -/
def pArg (r : Ref) : Argument := ⟨(h.node r).canon, propArgCode (h.node r), true⟩
def aArg (r : Ref) : Argument := ⟨(h.node r).canon, adjArgCode (h.node r), true⟩

theorem nounArg_ok (r : Ref) : nounArg h r = .ok (nArg h r) :=
  new_ok (propCodes_sub (nounCodes_sub (nounArgCode_spec _).2))

theorem propArg_ok (r : Ref) : Argument.new (h.node r).canon (propArgCode (h.node r)) = .ok (pArg h r) :=
  new_ok (propCodes_sub (propArgCode_mem _))

theorem adjArg_ok (r : Ref) : Argument.new (h.node r).canon (adjArgCode (h.node r)) = .ok (aArg h r) :=
  new_ok (propCodes_sub (adjArgCode_mem _))

theorem isNoun_iff (r : Ref) (a : Argument) : IsNoun h r a ↔ a = nArg h r := by
  unfold IsNoun nArg
  constructor
  · rintro ⟨h1, h2, h3⟩
    have := nounCode_eq h2
    cases a; simp_all
  · rintro rfl; exact ⟨rfl, (nounArgCode_spec _).1, rfl⟩

theorem isProp_iff (r : Ref) (a : Argument) : IsProp h r a ↔ a = pArg h r := by
  unfold IsProp pArg
  rw [propCode_iff]
  constructor
  · rintro ⟨h1, h2, h3⟩
    cases a; simp_all
  · rintro rfl; exact ⟨rfl, rfl, rfl⟩

theorem isAdj_iff (r : Ref) (a : Argument) : IsAdj h r a ↔ a = aArg h r := by
  unfold IsAdj aArg
  rw [adjCode_iff]
  constructor
  · rintro ⟨h1, h2, h3⟩
    cases a; simp_all
  · rintro rfl; exact ⟨rfl, rfl, rfl⟩

theorem newT (w : Str) (b : Bool) : Argument.new w c!"T" b = .ok ⟨w, c!"T", b⟩ := new_ok (by decide)
theorem newI (w : Str) (b : Bool) : Argument.new w c!"I" b = .ok ⟨w, c!"I", b⟩ := new_ok (by decide)
theorem newC (w : Str) (b : Bool) : Argument.new w c!"C" b = .ok ⟨w, c!"C", b⟩ := new_ok (by decide)
theorem newR (w : Str) (b : Bool) : Argument.new w c!"R" b = .ok ⟨w, c!"R", b⟩ := new_ok (by decide)
theorem newL (w : Str) (b : Bool) : Argument.new w c!"L" b = .ok ⟨w, c!"L", b⟩ := new_ok (by decide)

theorem bind_ok {α β : Type} (a : α) (f : α → Except PyErr β) : (Except.ok a >>= f) = f a := rfl

theorem mem_nominals (l : List Ref) (r : Ref) : r ∈ nominals h l ↔ r ∈ l ∧ Nominal h r := by
  simp [nominals, Nominal, nominal, nounTags]

theorem plain_iff (n : Node) : n.cannotBeTransitive = false ↔ Plain n := by
  simp [Node.cannotBeTransitive, Plain, and_assoc]

theorem headVerb_iff (v : Ref) : headVerb h v = true ↔ Heads h v := by
  simp only [headVerb, Heads, ← plain_iff, Bool.and_eq_true, Bool.not_eq_true', Bool.or_eq_false_iff, decide_eq_true_eq]

theorem clauseTuples_gives (v s o s' : Ref) : Gives (clauseTuples h v s o s') fun t =>
    (Plain (h.node o) ∧ (h.node o).objs = [] ∧ (h.node o).canon ∉ notIntransitive ∧ t = ⟨[nArg h s,
      ⟨(h.node v).canon, c!"T", affirmed [(h.node s).isAff, (h.node v).isAff, (h.node s').isAff, (h.node o).isAff]⟩,
      nArg h s', ⟨(h.node o).canon, c!"I", true⟩]⟩) ∨
    (Plain (h.node o) ∧ ∃ o', o' ∈ (h.node o).objs ∧ Nominal h o' ∧ t = ⟨[nArg h s,
      ⟨(h.node v).canon, c!"T", affirmed [(h.node s).isAff, (h.node v).isAff, (h.node s').isAff, (h.node o).isAff,
      (h.node o').isAff]⟩, nArg h s', ⟨(h.node o).canon, c!"T", true⟩, nArg h o']⟩) ∨
    ∃ p ∈ (h.node o).props, t = ⟨[nArg h s,
      ⟨(h.node v).canon, c!"T", affirmed [(h.node s).isAff, (h.node v).isAff, (h.node s').isAff, (h.node o).isAff,
      (h.node p).isAff]⟩, nArg h s', ⟨(h.node o).canon, c!"C", true⟩, pArg h p]⟩ := by
  unfold clauseTuples
  simp only [nounArg_ok, xnor_affirmed, newT, newI, newC, propArg_ok, bind_ok, pure_bind, bind_assoc]
  refine Gives.congr (Gives.append (Gives.ite (fun _ => Gives.append (Gives.ite (fun _ => Gives.one _) fun _ => Gives.none)
    (Gives.collect fun x _ => Gives.one _)) fun _ => Gives.none) (Gives.collect fun x _ => Gives.one _)) ?_
  intro t
  simp only [and_false, or_false, Bool.not_eq_true', plain_iff, List.isEmpty_iff, mem_nominals, and_assoc]
  rw [← or_assoc]
  apply or_congr _ Iff.rfl
  rw [and_or_left]

theorem fromVerbsSubjsObjs_gives (v : Ref) : Gives (fromVerbsSubjsObjs h v) fun t =>
    ∃ s, (s ∈ (h.node v).subjs ∧ Nominal h s) ∧ ∃ o, (o ∈ (h.node v).objs ∧ (h.node o).tag = .VERB) ∧
      ∃ s', ClauseSubj h s o s' ∧ ((Plain (h.node o) ∧ (h.node o).objs = [] ∧ (h.node o).canon ∉ notIntransitive ∧ t = ⟨[nArg h s,
      ⟨(h.node v).canon, c!"T", affirmed [(h.node s).isAff, (h.node v).isAff, (h.node s').isAff, (h.node o).isAff]⟩,
      nArg h s', ⟨(h.node o).canon, c!"I", true⟩]⟩) ∨
    (Plain (h.node o) ∧ ∃ o', o' ∈ (h.node o).objs ∧ Nominal h o' ∧ t = ⟨[nArg h s,
      ⟨(h.node v).canon, c!"T", affirmed [(h.node s).isAff, (h.node v).isAff, (h.node s').isAff, (h.node o).isAff,
      (h.node o').isAff]⟩, nArg h s', ⟨(h.node o).canon, c!"T", true⟩, nArg h o']⟩) ∨
    ∃ p ∈ (h.node o).props, t = ⟨[nArg h s,
      ⟨(h.node v).canon, c!"T", affirmed [(h.node s).isAff, (h.node v).isAff, (h.node s').isAff, (h.node o).isAff,
      (h.node p).isAff]⟩, nArg h s', ⟨(h.node o).canon, c!"C", true⟩, pArg h p]⟩) := by
  unfold fromVerbsSubjsObjs
  simp only [nounArg_ok, bind_ok]
  refine Gives.congr (Gives.collect fun s _ => Gives.collect fun o _ => Gives.collect fun s' _ => clauseTuples_gives h v s o s') ?_
  intro t
  have hs2 : ∀ s o s', s' ∈ subjs2 h s o ↔ ClauseSubj h s o s' := by
    intro s o s'
    unfold subjs2 ClauseSubj
    by_cases he : (h.node o).subjs = []
    · simp [he]
    · simp [he, mem_nominals]
  have hvo : ∀ o, o ∈ verbObjs h v ↔ o ∈ (h.node v).objs ∧ (h.node o).tag = .VERB := by
    intro o; simp [verbObjs]
  simp only [mem_nominals, hs2, hvo]

theorem fromSubjsObjs_gives (v : Ref) : Gives (fromSubjsObjs h v) fun t =>
    ((h.node v).objs = [] ∧ (h.node v).canon ∉ notIntransitive ∧ ∃ s, s ∈ (h.node v).subjs ∧ Nominal h s ∧
      t = ⟨[nArg h s, ⟨(h.node v).canon, c!"I", affirmed [(h.node s).isAff, (h.node v).isAff]⟩]⟩) ∨
    ∃ o, (o ∈ (h.node v).objs ∧ Nominal h o) ∧ ∃ s, (s ∈ (h.node v).subjs ∧ Nominal h s) ∧
      t = ⟨[nArg h s, ⟨(h.node v).canon, c!"T", affirmed [(h.node s).isAff, (h.node v).isAff, (h.node o).isAff]⟩, nArg h o]⟩ := by
  unfold fromSubjsObjs
  simp only [nounArg_ok, xnor_affirmed, newT, newI, bind_ok]
  refine Gives.congr (Gives.append (Gives.ite (fun _ => Gives.collect fun x _ => Gives.one _) fun _ => Gives.none)
    (Gives.collect fun x _ => Gives.collect fun y _ => Gives.one _)) ?_
  intro t
  simp only [and_false, or_false, List.isEmpty_iff, mem_nominals, and_assoc]

theorem fromIobj_gives (v : Ref) : Gives (fromIobj h v) fun t =>
    ∃ o, (o ∈ (h.node v).iobjs ∧ Nominal h o) ∧ ∃ s, (s ∈ (h.node v).subjs ∧ Nominal h s) ∧
      t = ⟨[nArg h s, ⟨(h.node v).canon, c!"R", affirmed [(h.node s).isAff, (h.node v).isAff, (h.node o).isAff]⟩, nArg h o]⟩ := by
  unfold fromIobj
  simp only [nounArg_ok, xnor_affirmed, newR, bind_ok]
  refine Gives.congr (Gives.collect fun x _ => Gives.collect fun y _ => Gives.one _) ?_
  intro t
  simp only [mem_nominals]

theorem ppWithParticles_eq (v : Ref) : ppWithParticles pp h v = pastParticiple pp h v := by
  unfold ppWithParticles pastParticiple
  cases (h.node v).particles <;> simp [join]

theorem join_be (w : Str) : join c!" " [c!"be", w] = c!"be " ++ w := rfl

theorem fromObjs_gives (v : Ref) : Gives (fromObjs pp h v) fun t => (h.node v).canon ∉ notPassive ∧
    ∃ o, (o ∈ (h.node v).objs ∧ Nominal h o) ∧ t = ⟨[nArg h o, ⟨c!"be", c!"C",
      affirmed (subjPolarity h v ++ [(h.node v).isAff, (h.node o).isAff])⟩, ⟨pastParticiple pp h v, c!"L", true⟩]⟩ := by
  unfold fromObjs
  have hx : ∀ o, (if (h.node v).subjs.isEmpty = true then xnor [(h.node v).isAff, (h.node o).isAff]
        else xnor [(h.node v).subjs.any fun s => (h.node s).isAff, (h.node v).isAff, (h.node o).isAff]) =
      .ok (affirmed (subjPolarity h v ++ [(h.node v).isAff, (h.node o).isAff])) := by
    intro o
    unfold subjPolarity
    by_cases he : (h.node v).subjs = []
    · simp [he, xnor_affirmed]
    · have : ((h.node v).subjs.any fun s => (h.node s).isAff) = decide (∃ s ∈ (h.node v).subjs, (h.node s).isAff = true) := by
        rw [Bool.eq_iff_iff]; simp
      simp [he, xnor_affirmed, this]
  simp only [nounArg_ok, hx, newC, newL, bind_ok]
  refine Gives.congr (Gives.ite (fun _ => Gives.collect fun x _ => Gives.one _) fun _ => Gives.none) ?_
  intro t
  simp only [and_false, or_false, mem_nominals, ppWithParticles_eq]

theorem activeForms_gives (n p : Ref) : Gives (activeForms h n p (nArg h n)) fun t =>
    ∃ w, ActiveVerb (h.node p) w ∧ ∃ x, (x ∈ (h.node p).agents ∧ Nominal h x) ∧
      t = ⟨[nArg h x, ⟨w, c!"T", affirmed [(h.node x).isAff, (h.node p).isAff, (h.node n).isAff]⟩, nArg h n]⟩ := by
  unfold activeForms
  cases ha : (h.node p).active with
  | none =>
    refine Gives.none.congr fun t => ?_
    constructor
    · exact False.elim
    · rintro ⟨w, hw, _⟩
      rw [← active_iff, ha] at hw; cases hw
  | some w =>
    simp only [nounArg_ok, xnor_affirmed, newT, bind_ok]
    refine Gives.congr (Gives.collect fun x _ => Gives.one _) ?_
    intro t
    simp only [mem_nominals]
    constructor
    · intro ht; exact ⟨w, (active_iff _ _).mp ha, ht⟩
    · rintro ⟨w', hw, ht⟩
      rw [← active_iff, ha] at hw; cases hw
      exact ht

theorem fromNakedAdjs_gives (n : Ref) : Gives (fromNakedAdjs h n) fun t => ∃ p ∈ (h.node n).adjs,
    t = ⟨[nArg h n, ⟨c!"be", c!"C", affirmed [(h.node p).isAff, (h.node n).isAff]⟩, aArg h p]⟩ ∨
    ∃ w, ActiveVerb (h.node p) w ∧ ∃ x, (x ∈ (h.node p).agents ∧ Nominal h x) ∧
      t = ⟨[nArg h x, ⟨w, c!"T", affirmed [(h.node x).isAff, (h.node p).isAff, (h.node n).isAff]⟩, nArg h n]⟩ := by
  unfold fromNakedAdjs
  simp only [nounArg_ok, xnor_affirmed, newC, adjArg_ok, bind_ok]
  exact Gives.collect fun x _ => Gives.cons _ (activeForms_gives h n x)

theorem mem_propTags (r : Ref) : (h.node r).tag ∈ propTags ↔ ((h.node r).tag ∈ nominal ∨ (h.node r).tag = .ADJ) := by
  simp [propTags, nounTags, nominal]
  tauto

theorem fromPpProps_gives (n : Ref) : Gives (fromPpProps h n) fun t => ∃ x, (x ∈ (h.node n).ppsProps ∧
    ((h.node x.2).tag ∈ nominal ∨ (h.node x.2).tag = .ADJ)) ∧
    t = ⟨[nArg h n, ⟨c!"be " ++ (h.node x.1).canon, c!"C", affirmed [(h.node n).isAff, (h.node x.1).isAff,
      (h.node x.2).isAff]⟩, pArg h x.2]⟩ := by
  unfold fromPpProps
  simp only [nounArg_ok, xnor_affirmed, newC, propArg_ok, bind_ok, join_be]
  refine Gives.congr (Gives.collect fun x _ => Gives.one _) ?_
  intro t
  simp only [List.mem_filter, decide_eq_true_eq, mem_propTags]

theorem fromCopulaProps_gives (n : Ref) : Gives (fromCopulaProps h n) fun t => ∃ x, (x ∈ (h.node n).copulasProps ∧
    ((h.node x.2).tag ∈ nominal ∨ (h.node x.2).tag = .ADJ)) ∧
    (t = ⟨[nArg h n, ⟨(h.node x.1).canon, c!"C", affirmed [(h.node n).isAff, (h.node x.1).isAff,
      (h.node x.2).isAff]⟩, pArg h x.2]⟩ ∨ ((h.node x.2).tag = .ADJ ∧
    ∃ w, ActiveVerb (h.node x.2) w ∧ ∃ y, (y ∈ (h.node x.2).agents ∧ Nominal h y) ∧
      t = ⟨[nArg h y, ⟨w, c!"T", affirmed [(h.node y).isAff, (h.node x.2).isAff, (h.node n).isAff]⟩, nArg h n]⟩)) := by
  unfold fromCopulaProps
  simp only [nounArg_ok, xnor_affirmed, newC, propArg_ok, bind_ok]
  refine Gives.congr (Gives.collect fun x _ => Gives.cons _ (Gives.ite (fun _ => activeForms_gives h n x.2) fun _ => Gives.none)) ?_
  intro t
  simp only [List.mem_filter, decide_eq_true_eq, mem_propTags, and_false, or_false]

theorem ipropAff_eq (n : Ref) (x : Option Ref × Ref × Ref) : ipropAff h n x = .ok (affirmed
    ((x.1.map fun s => (h.node s).isAff).toList ++ [(h.node x.2.1).isAff, (h.node n).isAff, (h.node x.2.2).isAff])) := by
  unfold ipropAff
  cases x.1 <;> simp [xnor_affirmed]

theorem fromIprops_gives (n : Ref) : Gives (fromIprops pp h n) fun t => ∃ x, (x ∈ (h.node n).subjsVerbsIprops ∧
    ((h.node x.2.2).tag ∈ nominal ∨ (h.node x.2.2).tag = .ADJ)) ∧
    t = ⟨[nArg h n, ⟨c!"be " ++ pastParticiple pp h x.2.1, c!"C", affirmed
      ((x.1.map fun s => (h.node s).isAff).toList ++ [(h.node x.2.1).isAff, (h.node n).isAff, (h.node x.2.2).isAff])⟩,
      pArg h x.2.2]⟩ := by
  unfold fromIprops
  simp only [nounArg_ok, ipropAff_eq, newC, propArg_ok, bind_ok, join_be]
  refine Gives.congr (Gives.collect fun x _ => Gives.one _) ?_
  intro t
  simp only [List.mem_filter, decide_eq_true_eq, mem_propTags, ppWithParticles_eq]

theorem blocked_iff (o : Ref) : o ∈ (nodes.filter fun n => headVerb h n).flatMap (blockedBy h) ↔ Embedded h nodes o := by
  simp only [List.mem_flatMap, List.mem_filter, headVerb_iff, blockedBy, mem_nominals, verbObjs, decide_eq_true_eq,
    Embedded, Clause]
  constructor
  · rintro ⟨v, ⟨h1, h2⟩, s, ⟨h3, h4⟩, h5, h6⟩; exact ⟨s, v, h1, h2, h3, h4, h5, h6⟩
  · rintro ⟨s, v, h1, h2, h3, h4, h5, h6⟩; exact ⟨v, ⟨h1, h2⟩, s, ⟨h3, h4⟩, h5, h6⟩

theorem not_embedded {n : Ref} (hn : Nominal h n) : ¬ Embedded h nodes n := by
  rintro ⟨s, v, hc⟩
  unfold Nominal nominal at hn
  rw [hc.2.2.2.2.2] at hn
  exact absurd hn (by decide)

/-- The extraction raises nothing and gives exactly what the nodes say. -/
theorem extractTuples_spec : Gives (extractTuples pp h nodes) fun t => Said pp h nodes t.args := by
  unfold extractTuples
  refine Gives.congr (Gives.append' (Gives.collect fun n _ => Gives.ite (fun _ => fromVerbsSubjsObjs_gives h n) fun _ => Gives.none)
    (Gives.collect fun n _ => Gives.ite (fun _ => Gives.append (fromSubjsObjs_gives h n) (fromIobj_gives h n)) fun _ =>
      Gives.ite (fun _ => Gives.append4 (fromIprops_gives pp h n) (fromCopulaProps_gives h n)
        (fromPpProps_gives h n) (fromNakedAdjs_gives h n)) fun _ => Gives.none)
    (Gives.collect fun n _ => Gives.ite (fun _ => fromObjs_gives pp h n) fun _ => Gives.none)) ?_
  rintro ⟨t⟩
  simp only [List.mem_filter, blocked_iff, decide_eq_true_eq, headVerb_iff, and_false, or_false]
  have hnt : ∀ n, (h.node n).tag ∈ nounTags ↔ Nominal h n := fun n => by simp [Nominal, nominal, nounTags]
  simp only [hnt, plain_iff, STuple.mk.injEq]
  constructor
  · rintro (⟨v, hv, hh, s, ⟨h1, h2⟩, o, ⟨h3, h4⟩, s', h5, hr⟩ | ⟨n, ⟨hn, he⟩, hr⟩ | ⟨v, hv, ⟨h1, h2⟩, h3, o, ⟨h4, h5⟩, rfl⟩)
    · have hc : Clause h nodes s v o := ⟨hv, hh, h1, h2, h3, h4⟩
      rcases hr with ⟨h6, h7, h8, rfl⟩ | ⟨h6, o', h7, h8, rfl⟩ | ⟨p, h6, rfl⟩
      · exact .clauseIntr hc h5 h6 h7 h8 ((isNoun_iff _ _ _).mpr rfl) ((isNoun_iff _ _ _).mpr rfl)
      · exact .clauseTrans hc h5 h6 h7 h8 ((isNoun_iff _ _ _).mpr rfl) ((isNoun_iff _ _ _).mpr rfl) ((isNoun_iff _ _ _).mpr rfl)
      · exact .clauseProp hc h5 h6 ((isNoun_iff _ _ _).mpr rfl) ((isNoun_iff _ _ _).mpr rfl) ((isProp_iff _ _ _).mpr rfl)
    · rcases hr with ⟨hh, (⟨h1, h2, s, h3, h4, rfl⟩ | ⟨o, ⟨h1, h2⟩, s, ⟨h3, h4⟩, rfl⟩) | ⟨o, ⟨h1, h2⟩, s, ⟨h3, h4⟩, rfl⟩⟩ |
        ⟨_, hno, hr⟩
      · exact .intr hn he hh h1 h2 h3 h4 ((isNoun_iff _ _ _).mpr rfl)
      · exact .trans hn he hh h3 h4 h1 h2 ((isNoun_iff _ _ _).mpr rfl) ((isNoun_iff _ _ _).mpr rfl)
      · exact .recip hn he hh h3 h4 h1 h2 ((isNoun_iff _ _ _).mpr rfl) ((isNoun_iff _ _ _).mpr rfl)
      · rcases hr with ⟨⟨s, v, p⟩, ⟨h1, h2⟩, rfl⟩ | ⟨⟨c, p⟩, ⟨h1, h2⟩, rfl | ⟨h3, w, h4, x, ⟨h5, h6⟩, rfl⟩⟩ |
          ⟨⟨q, p⟩, ⟨h1, h2⟩, rfl⟩ | ⟨p, h1, rfl | ⟨w, h4, x, ⟨h5, h6⟩, rfl⟩⟩
        · exact .indirect hn hno h1 h2 ((isNoun_iff _ _ _).mpr rfl) ((isProp_iff _ _ _).mpr rfl)
        · exact .copula hn hno h1 h2 ((isNoun_iff _ _ _).mpr rfl) ((isProp_iff _ _ _).mpr rfl)
        · exact .copulaActive hn hno h1 h3 h4 h5 h6 ((isNoun_iff _ _ _).mpr rfl) ((isNoun_iff _ _ _).mpr rfl)
        · exact .participle hn hno h1 h2 ((isNoun_iff _ _ _).mpr rfl) ((isProp_iff _ _ _).mpr rfl)
        · exact .adjective hn hno h1 ((isNoun_iff _ _ _).mpr rfl) ((isAdj_iff _ _ _).mpr rfl)
        · exact .adjectiveActive hn hno h1 h4 h5 h6 ((isNoun_iff _ _ _).mpr rfl) ((isNoun_iff _ _ _).mpr rfl)
    · exact .passive hv h1 h2 h3 h4 h5 ((isNoun_iff _ _ _).mpr rfl)
  · have hnh : ∀ {n}, Nominal h n → ¬ Heads h n := by
      intro n hn hh
      unfold Nominal nominal at hn
      rw [hh.1] at hn
      exact absurd hn (by decide)
    intro hs
    cases hs with
    | clauseIntr hc h5 h6 h7 h8 a b =>
      rw [isNoun_iff] at a b; subst a b
      obtain ⟨hv, hh, h1, h2, h3, h4⟩ := hc
      exact Or.inl ⟨_, hv, hh, _, ⟨h1, h2⟩, _, ⟨h3, h4⟩, _, h5, Or.inl ⟨h6, h7, h8, rfl⟩⟩
    | clauseTrans hc h5 h6 h7 h8 a b c =>
      rw [isNoun_iff] at a b c; subst a b c
      obtain ⟨hv, hh, h1, h2, h3, h4⟩ := hc
      exact Or.inl ⟨_, hv, hh, _, ⟨h1, h2⟩, _, ⟨h3, h4⟩, _, h5, Or.inr (Or.inl ⟨h6, _, h7, h8, rfl⟩)⟩
    | clauseProp hc h5 h6 a b c =>
      rw [isNoun_iff] at a b; rw [isProp_iff] at c; subst a b c
      obtain ⟨hv, hh, h1, h2, h3, h4⟩ := hc
      exact Or.inl ⟨_, hv, hh, _, ⟨h1, h2⟩, _, ⟨h3, h4⟩, _, h5, Or.inr (Or.inr ⟨_, h6, rfl⟩)⟩
    | intr hn he hh h1 h2 h3 h4 a =>
      rw [isNoun_iff] at a; subst a
      exact Or.inr (Or.inl ⟨_, ⟨hn, he⟩, Or.inl ⟨hh, Or.inl (Or.inl ⟨h1, h2, _, h3, h4, rfl⟩)⟩⟩)
    | trans hn he hh h3 h4 h1 h2 a b =>
      rw [isNoun_iff] at a b; subst a b
      exact Or.inr (Or.inl ⟨_, ⟨hn, he⟩, Or.inl ⟨hh, Or.inl (Or.inr ⟨_, ⟨h1, h2⟩, _, ⟨h3, h4⟩, rfl⟩)⟩⟩)
    | recip hn he hh h3 h4 h1 h2 a b =>
      rw [isNoun_iff] at a b; subst a b
      exact Or.inr (Or.inl ⟨_, ⟨hn, he⟩, Or.inl ⟨hh, Or.inr ⟨_, ⟨h1, h2⟩, _, ⟨h3, h4⟩, rfl⟩⟩⟩)
    | passive hv h1 h2 h3 h4 h5 a =>
      rw [isNoun_iff] at a; subst a
      exact Or.inr (Or.inr ⟨_, hv, ⟨h1, h2⟩, h3, _, ⟨h4, h5⟩, rfl⟩)
    | indirect hn hno h1 h2 a b =>
      rw [isNoun_iff] at a; rw [isProp_iff] at b; subst a b
      exact Or.inr (Or.inl ⟨_, ⟨hn, not_embedded h nodes hno⟩, Or.inr ⟨hnh hno, hno, Or.inl ⟨(_, _, _), ⟨h1, h2⟩, rfl⟩⟩⟩)
    | copula hn hno h1 h2 a b =>
      rw [isNoun_iff] at a; rw [isProp_iff] at b; subst a b
      exact Or.inr (Or.inl ⟨_, ⟨hn, not_embedded h nodes hno⟩, Or.inr ⟨hnh hno, hno, Or.inr (Or.inl
        ⟨(_, _), ⟨h1, h2⟩, Or.inl rfl⟩)⟩⟩)
    | copulaActive hn hno h1 h3 h4 h5 h6 a b =>
      rw [isNoun_iff] at a b; subst a b
      exact Or.inr (Or.inl ⟨_, ⟨hn, not_embedded h nodes hno⟩, Or.inr ⟨hnh hno, hno, Or.inr (Or.inl
        ⟨(_, _), ⟨h1, Or.inr h3⟩, Or.inr ⟨h3, _, h4, _, ⟨h5, h6⟩, rfl⟩⟩)⟩⟩)
    | participle hn hno h1 h2 a b =>
      rw [isNoun_iff] at a; rw [isProp_iff] at b; subst a b
      exact Or.inr (Or.inl ⟨_, ⟨hn, not_embedded h nodes hno⟩, Or.inr ⟨hnh hno, hno, Or.inr (Or.inr (Or.inl
        ⟨(_, _), ⟨h1, h2⟩, rfl⟩))⟩⟩)
    | adjective hn hno h1 a b =>
      rw [isNoun_iff] at a; rw [isAdj_iff] at b; subst a b
      exact Or.inr (Or.inl ⟨_, ⟨hn, not_embedded h nodes hno⟩, Or.inr ⟨hnh hno, hno, Or.inr (Or.inr (Or.inr
        ⟨_, h1, Or.inl rfl⟩))⟩⟩)
    | adjectiveActive hn hno h1 h4 h5 h6 a b =>
      rw [isNoun_iff] at a b; subst a b
      exact Or.inr (Or.inl ⟨_, ⟨hn, not_embedded h nodes hno⟩, Or.inr ⟨hnh hno, hno, Or.inr (Or.inr (Or.inr
        ⟨_, h1, Or.inr ⟨_, h4, _, ⟨h5, h6⟩, rfl⟩⟩))⟩⟩)

end
end Model
