import Verif.Spec.Calling
import Verif.Lemmas.Simple

/-! Lemmas for sentences with a property of the object. -/

namespace Model
open Py Spec

variable {ck : Bool} {c : Logic} {tokens : List Str} {tg : List Tag} {t : Tree Dep Nat} {v s o p : Nat}

theorem first_only {d : Dep} {x i : Nat} (hx : (d, x) ∈ t.children v) (h : ∀ y, (d, y) ∈ t.children v → y = x) :
    Exactly.First t v d i ↔ i = x := by
  constructor
  · exact fun k => h i (firstArc k)
  · rintro rfl
    cases e : (((t.children v).filter fun a => a.1 = d).map Prod.snd).head? with
    | none =>
      rw [List.head?_eq_none_iff, List.map_eq_nil_iff, List.filter_eq_nil_iff] at e
      exact absurd (decide_eq_true rfl) (e _ hx)
    | some y =>
      have : Exactly.First t v d y := e
      rw [← h y (firstArc this)]
      exact this

section
variable (F : Calling t v s o p)
include F

theorem _root_.Spec.Calling.arc {i x : Nat} {d : Dep} (h : (d, x) ∈ t.children i) (hd : d ∉ functional) (ha : d ≠ .AND) (ho : d ≠ .OR) :
    i = v ∧ ((d, x) = (.SUBJ, s) ∨ (d, x) = (.OBJ, o) ∨ (d, x) = (.IPROP, p)) := by
  by_cases e : i = v
  · subst e
    exact ⟨rfl, F.only d x h hd⟩
  · rcases F.others i d x h e hd with k | k
    · exact absurd k ha
    · exact absurd k ho

theorem _root_.Spec.Calling.none {i x : Nat} {d : Dep} (hd : d ∉ functional ++ [.AND, .OR, .SUBJ, .OBJ, .IPROP]) :
    (d, x) ∉ t.children i := by
  intro h
  simp only [List.mem_append, List.mem_cons, List.not_mem_nil, or_false, not_or] at hd
  obtain ⟨-, k | k | k⟩ := F.arc h hd.1 hd.2.1 hd.2.2.1
  · exact hd.2.2.2.1 (congrArg Prod.fst k)
  · exact hd.2.2.2.2.1 (congrArg Prod.fst k)
  · exact hd.2.2.2.2.2 (congrArg Prod.fst k)

theorem _root_.Spec.Calling.isSubj {i x : Nat} (h : (.SUBJ, x) ∈ t.children i) : i = v ∧ x = s := by
  obtain ⟨e, k | k | k⟩ := F.arc h (by decide) (by decide) (by decide)
  · exact ⟨e, congrArg Prod.snd k⟩
  all_goals exact absurd (congrArg Prod.fst k) (by simp)

theorem _root_.Spec.Calling.isObj {i x : Nat} (h : (.OBJ, x) ∈ t.children i) : i = v ∧ x = o := by
  obtain ⟨e, k | k | k⟩ := F.arc h (by decide) (by decide) (by decide)
  · exact absurd (congrArg Prod.fst k) (by simp)
  · exact ⟨e, congrArg Prod.snd k⟩
  · exact absurd (congrArg Prod.fst k) (by simp)

theorem _root_.Spec.Calling.isProp {i x : Nat} (h : (.IPROP, x) ∈ t.children i) : i = v ∧ x = p := by
  obtain ⟨e, k | k | k⟩ := F.arc h (by decide) (by decide) (by decide)
  · exact absurd (congrArg Prod.fst k) (by simp)
  · exact absurd (congrArg Prod.fst k) (by simp)
  · exact ⟨e, congrArg Prod.snd k⟩

theorem _root_.Spec.Calling.hangs {v' x : Nat} : Hangs t .IPROP v' x ↔ v' = v ∧ Member t p x := by
  constructor
  · rintro ⟨y, h, m⟩
    obtain ⟨rfl, rfl⟩ := F.isProp h
    exact ⟨rfl, m⟩
  · rintro ⟨rfl, m⟩
    exact ⟨p, F.prop, m⟩

theorem _root_.Spec.Calling.member {v' : Nat} (h : Member t v v') : v' = v := by
  rcases h with rfl | h | h
  · rfl
  all_goals
    rcases F.only _ _ h (by decide) with k | k | k <;> exact absurd (congrArg Prod.fst k) (by simp)

theorem _root_.Spec.Calling.fixed {i : Nat} (h : i ≠ p) : ¬ Exactly.Correctable tg t i := by
  rintro ⟨-, q, ⟨k, -⟩ | k | k⟩
  · exact F.none (by decide) k
  · exact F.none (by decide) k
  · exact h (F.isProp k).2

theorem _root_.Spec.Calling.noPredicate {w : Str} : ¬ Exactly.Predicate ck c tokens tg t v w := fun k => k.2.2.1 p F.prop

theorem _root_.Spec.Calling.acts {v' x : Nat} (h : Exactly.Acts ck c tokens tg t v' x) : v' = v := by
  obtain ⟨v₀, s₀, h1, -, h3⟩ := h
  have : v₀ = v := by
    rcases h1 with ⟨i, h1, -⟩ | ⟨_, k, -⟩
    · exact (F.isSubj h1).1
    · exact absurd k (F.none (by decide))
  subst this
  rcases h3 with rfl | ⟨h3, -⟩
  · rfl
  · exact F.member h3

theorem _root_.Spec.Calling.undergoes {v' x : Nat} (h : Exactly.Undergoes ck c tokens tg t v' x) : v' = v := by
  obtain ⟨v₀, s₀, h1, -, h3⟩ := h
  have : v₀ = v := by
    rcases h1 with ⟨i, h1, -⟩ | ⟨_, _, _, k, -⟩
    · exact (F.isObj h1).1
    · exact absurd k (F.none (by decide))
  subst this
  rcases h3 with rfl | ⟨h3, -⟩
  · rfl
  · exact F.member h3

end
end Model
