import Verif.Spec.Intending
import Verif.Lemmas.Simple

/-! Lemmas for sentences with a clause without subject as object. -/

namespace Model
open Py Spec

variable {ck : Bool} {c : Logic} {tokens : List Str} {tg : List Tag} {t : Tree Dep Nat} {v s u o : Nat}

theorem nounCode_unique {tag : Tag} {x y : Str} (h : NounCode tag x) (h' : NounCode tag y) : x = y := by
  cases h <;> cases h' <;> first | rfl | contradiction

theorem noun_unique {i : Nat} {a b : Argument} (h : Noun c tokens tg i a) (h' : Noun c tokens tg i b) : a = b := by
  obtain ⟨l, tag, h1, h2, -, h3, h4, h5⟩ := h
  obtain ⟨l', tag', g1, g2, -, g3, g4, g5⟩ := h'
  cases LemmaOf_unique h1 g1
  rw [h2] at g2
  cases g2
  cases a
  cases b
  simp only at h3 h4 h5 g3 g4 g5
  rw [h5, g5, h4, g4, nounCode_unique h3 g3]

section
variable (F : Intending t v s u o)
include F

theorem _root_.Spec.Intending.arc {i x : Nat} {d : Dep} (h : (d, x) ∈ t.children i) (hd : d ∉ functional ++ [.AND, .OR]) :
    i = v ∧ ((d, x) = (.SUBJ, s) ∨ (d, x) = (.OBJ, u)) ∨ i = u ∧ (d, x) = (.OBJ, o) := by
  simp only [List.mem_append, List.mem_cons, List.not_mem_nil, or_false, not_or] at hd
  by_cases e : i = v
  · subst e
    exact .inl ⟨rfl, F.only d x h hd.1⟩
  · by_cases e' : i = u
    · subst e'
      exact .inr ⟨rfl, F.inner d x h hd.1⟩
    · rcases F.others i d x h e e' hd.1 with k | k
      · exact absurd k hd.2.1
      · exact absurd k hd.2.2

theorem _root_.Spec.Intending.none {i x : Nat} {d : Dep} (hd : d ∉ functional ++ [.AND, .OR]) (h1 : d ≠ .SUBJ) (h2 : d ≠ .OBJ) :
    (d, x) ∉ t.children i := by
  intro h
  rcases F.arc h hd with ⟨-, k | k⟩ | ⟨-, k⟩ <;> first | exact h1 (congrArg Prod.fst k) | exact h2 (congrArg Prod.fst k)

theorem _root_.Spec.Intending.noCpl (i x : Nat) : (.CPL, x) ∉ t.children i := F.none (by decide) (by decide) (by decide)

theorem _root_.Spec.Intending.isSubj {i x : Nat} (h : (.SUBJ, x) ∈ t.children i) : i = v ∧ x = s := by
  rcases F.arc h (by decide) with ⟨e, k | k⟩ | ⟨e, k⟩
  · exact ⟨e, congrArg Prod.snd k⟩
  all_goals exact absurd (congrArg Prod.fst k) (by simp)

theorem _root_.Spec.Intending.isObj {i x : Nat} (h : (.OBJ, x) ∈ t.children i) : i = v ∧ x = u ∨ i = u ∧ x = o := by
  rcases F.arc h (by decide) with ⟨e, k | k⟩ | ⟨e, k⟩
  · exact absurd (congrArg Prod.fst k) (by simp)
  · exact .inl ⟨e, congrArg Prod.snd k⟩
  · exact .inr ⟨e, congrArg Prod.snd k⟩

theorem _root_.Spec.Intending.member {x : Nat} (h : Member t v x) : x = v := by
  rcases h with rfl | h | h
  · rfl
  all_goals
    rcases F.only _ _ h (by decide) with k | k <;> exact absurd (congrArg Prod.fst k) (by simp)

theorem _root_.Spec.Intending.member' {x : Nat} (h : Member t u x) : x = u := by
  rcases h with rfl | h | h
  · rfl
  all_goals
    exact absurd (congrArg Prod.fst (F.inner _ _ h (by decide))) (by simp)

theorem _root_.Spec.Intending.fixed {i : Nat} : ¬ Exactly.Correctable tg t i := by
  rintro ⟨-, q, ⟨k, -⟩ | k | k⟩ <;> exact F.none (by decide) (by decide) (by decide) k

theorem _root_.Spec.Intending.acts (hvu : v ≠ u) (hvo : v ≠ o) {v' x : Nat} :
    Exactly.Acts ck c tokens tg t v' x ↔ v' = v ∧ Member t s x := by
  have rel : ∀ {v i n : Nat}, ¬ Exactly.RelativeTo ck c tokens tg t v i n := fun ⟨_, k, _⟩ => F.noCpl _ _ k
  have noObj : ∀ {p : Nat}, (.OBJ, v) ∉ t.children p := by
    intro p h
    rcases F.isObj h with ⟨-, e⟩ | ⟨-, e⟩
    · exact hvu e
    · exact hvo e
  constructor
  · rintro ⟨v₀, s₀, h1, h2, h3⟩
    rcases h1 with ⟨i, h1, h4⟩ | ⟨p, k, -⟩
    · obtain ⟨rfl, rfl⟩ := F.isSubj h1
      have : s₀ = i := by
        rcases h4 with h4 | ⟨-, -, p, h4, -⟩ | ⟨-, -, h4⟩
        · exact absurd h4 rel
        · exact absurd h4 noObj
        · exact h4
      subst this
      exact ⟨h3.elim id fun h3 => F.member h3.1, h2⟩
    · exact absurd k (F.noCpl _ _)
  · rintro ⟨rfl, h⟩
    exact ⟨_, s, .inl ⟨s, F.subj, .inr (.inr ⟨fun _ => rel, fun y ⟨_, p, k, _⟩ => noObj k, rfl⟩)⟩, h, .inl rfl⟩

theorem _root_.Spec.Intending.undergoes (hu : ¬ Exactly.Self ck c tokens tg t u) (ho : ¬ Exactly.Self ck c tokens tg t o) {v' x : Nat} :
    Exactly.Undergoes ck c tokens tg t v' x ↔ v' = v ∧ x = u ∨ v' = u ∧ Member t o x := by
  have rel : ∀ {v i n : Nat}, ¬ Exactly.RelativeTo ck c tokens tg t v i n := fun ⟨_, k, _⟩ => F.noCpl _ _ k
  constructor
  · rintro ⟨v₀, s₀, h1, h2, h3⟩
    rcases h1 with ⟨i, h1, h4⟩ | ⟨_, _, _, k, -⟩
    · have : s₀ = i := by
        rcases h4 with h4 | ⟨-, h4, -⟩ | ⟨-, -, h4⟩
        · exact absurd h4 rel
        · rcases F.isObj h1 with ⟨-, rfl⟩ | ⟨-, rfl⟩
          · exact absurd h4 hu
          · exact absurd h4 ho
        · exact h4
      subst this
      rcases F.isObj h1 with ⟨rfl, rfl⟩ | ⟨rfl, rfl⟩
      · exact .inl ⟨h3.elim id fun h3 => F.member h3.1, F.member' h2⟩
      · exact .inr ⟨h3.elim id fun h3 => F.member' h3.1, h2⟩
    · exact absurd k (F.noCpl _ _)
  · rintro (⟨rfl, rfl⟩ | ⟨rfl, h⟩)
    · exact ⟨_, _, .inl ⟨_, F.clause, .inr (.inr ⟨fun _ => rel, fun y k => hu k.1, rfl⟩)⟩, .inl rfl, .inl rfl⟩
    · exact ⟨_, o, .inl ⟨o, F.obj, .inr (.inr ⟨fun _ => rel, fun y k => ho k.1, rfl⟩)⟩, h, .inl rfl⟩

end
end Model
