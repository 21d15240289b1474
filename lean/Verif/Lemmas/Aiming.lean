import Verif.Spec.Aiming
import Verif.Lemmas.Simple

/-! Lemmas for sentences with a clause of a verb alone as object. -/

namespace Model
open Py Spec

variable {ck : Bool} {c : Logic} {tokens : List Str} {tg : List Tag} {t : Tree Dep Nat} {v s u : Nat}

section
variable (F : Aiming t v s u)
include F

theorem _root_.Spec.Aiming.arc {i x : Nat} {d : Dep} (h : (d, x) ∈ t.children i) (hd : d ∉ functional ++ [.AND, .OR]) :
    i = v ∧ ((d, x) = (.SUBJ, s) ∨ (d, x) = (.OBJ, u)) := by
  simp only [List.mem_append, List.mem_cons, List.not_mem_nil, or_false, not_or] at hd
  by_cases e : i = v
  · subst e
    exact ⟨rfl, F.only d x h hd.1⟩
  · by_cases e' : i = u
    · subst e'
      exact absurd (F.inner d x h) hd.1
    · rcases F.others i d x h e e' hd.1 with k | k
      · exact absurd k hd.2.1
      · exact absurd k hd.2.2

theorem _root_.Spec.Aiming.none {i x : Nat} {d : Dep} (hd : d ∉ functional ++ [.AND, .OR]) (h1 : d ≠ .SUBJ) (h2 : d ≠ .OBJ) :
    (d, x) ∉ t.children i := by
  intro h
  rcases F.arc h hd with ⟨-, k | k⟩ <;> first | exact h1 (congrArg Prod.fst k) | exact h2 (congrArg Prod.fst k)

theorem _root_.Spec.Aiming.noCpl (i x : Nat) : (.CPL, x) ∉ t.children i := F.none (by decide) (by decide) (by decide)

theorem _root_.Spec.Aiming.isSubj {i x : Nat} (h : (.SUBJ, x) ∈ t.children i) : i = v ∧ x = s := by
  rcases F.arc h (by decide) with ⟨e, k | k⟩
  · exact ⟨e, congrArg Prod.snd k⟩
  · exact absurd (congrArg Prod.fst k) (by simp)

theorem _root_.Spec.Aiming.isObj {i x : Nat} (h : (.OBJ, x) ∈ t.children i) : i = v ∧ x = u := by
  rcases F.arc h (by decide) with ⟨e, k | k⟩
  · exact absurd (congrArg Prod.fst k) (by simp)
  · exact ⟨e, congrArg Prod.snd k⟩

theorem _root_.Spec.Aiming.member {x : Nat} (h : Member t v x) : x = v := by
  rcases h with rfl | h | h
  · rfl
  all_goals
    rcases F.only _ _ h (by decide) with k | k <;> exact absurd (congrArg Prod.fst k) (by simp)

theorem _root_.Spec.Aiming.member' {x : Nat} (h : Member t u x) : x = u := by
  rcases h with rfl | h | h
  · rfl
  all_goals exact absurd (F.inner _ _ h) (by decide)

theorem _root_.Spec.Aiming.fixed {i : Nat} : ¬ Exactly.Correctable tg t i := by
  rintro ⟨-, q, ⟨k, -⟩ | k | k⟩ <;> exact F.none (by decide) (by decide) (by decide) k

theorem _root_.Spec.Aiming.acts (hvu : v ≠ u) {v' x : Nat} :
    Exactly.Acts ck c tokens tg t v' x ↔ v' = v ∧ Member t s x := by
  have rel : ∀ {v i n : Nat}, ¬ Exactly.RelativeTo ck c tokens tg t v i n := fun ⟨_, k, _⟩ => F.noCpl _ _ k
  have noObj : ∀ {p : Nat}, (.OBJ, v) ∉ t.children p := fun h => hvu (F.isObj h).2
  constructor
  · rintro ⟨v₀, s₀, h1, h2, h3⟩
    rcases h1 with ⟨i, h1, h4⟩ | ⟨p, k, -⟩
    · obtain ⟨rfl, rfl⟩ := F.isSubj h1
      have : s₀ = i := by
        rcases h4 with h4 | ⟨-, -, p, h4, -⟩ | ⟨-, -, h4⟩
        · exact absurd h4 rel
        · exact absurd h4 noObj
        · exact h4
      subst this
      exact ⟨h3.elim id fun h3 => F.member h3.1, h2⟩
    · exact absurd k (F.noCpl _ _)
  · rintro ⟨rfl, h⟩
    exact ⟨_, s, .inl ⟨s, F.subj, .inr (.inr ⟨fun _ => rel, fun y ⟨_, p, k, _⟩ => noObj k, rfl⟩)⟩, h, .inl rfl⟩

theorem _root_.Spec.Aiming.undergoes (hu : ¬ Exactly.Self ck c tokens tg t u) {v' x : Nat} :
    Exactly.Undergoes ck c tokens tg t v' x ↔ v' = v ∧ x = u := by
  have rel : ∀ {v i n : Nat}, ¬ Exactly.RelativeTo ck c tokens tg t v i n := fun ⟨_, k, _⟩ => F.noCpl _ _ k
  constructor
  · rintro ⟨v₀, s₀, h1, h2, h3⟩
    rcases h1 with ⟨i, h1, h4⟩ | ⟨_, _, _, k, -⟩
    · obtain ⟨rfl, rfl⟩ := F.isObj h1
      have : s₀ = i := by
        rcases h4 with h4 | ⟨-, h4, -⟩ | ⟨-, -, h4⟩
        · exact absurd h4 rel
        · exact absurd h4 hu
        · exact h4
      subst this
      exact ⟨h3.elim id fun h3 => F.member h3.1, F.member' h2⟩
    · exact absurd k (F.noCpl _ _)
  · rintro ⟨rfl, rfl⟩
    exact ⟨_, _, .inl ⟨_, F.clause, .inr (.inr ⟨fun _ => rel, fun y k => hu k.1, rfl⟩)⟩, .inl rfl, .inl rfl⟩

end
end Model
