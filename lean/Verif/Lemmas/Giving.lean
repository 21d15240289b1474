import Verif.Spec.Giving
import Verif.Lemmas.Simple

/-! Lemmas for sentences with a recipient: who acts, who undergoes and who receives. -/

namespace Model
open Py Spec

variable {ck : Bool} {c : Logic} {tokens : List Str} {tg : List Tag} {t : Tree Dep Nat} {v s r o : Nat} (F : Giving t v s r o)
include F

theorem _root_.Spec.Giving.arc {p x : Nat} {d : Dep} (h : (d, x) ∈ t.children p) (hd : d ∉ functional) (ha : d ≠ .AND) (ho : d ≠ .OR) :
    p = v ∧ ((d, x) = (.SUBJ, s) ∨ (d, x) = (.IOBJ, r) ∨ (d, x) = (.OBJ, o)) := by
  by_cases e : p = v
  · subst e
    exact ⟨rfl, F.only d x h hd⟩
  · rcases F.others p d x h e hd with k | k
    · exact absurd k ha
    · exact absurd k ho

theorem _root_.Spec.Giving.none {p x : Nat} {d : Dep} (hd : d ∉ functional ++ [.AND, .OR, .SUBJ, .IOBJ, .OBJ]) :
    (d, x) ∉ t.children p := by
  intro h
  simp only [List.mem_append, List.mem_cons, List.not_mem_nil, or_false, not_or] at hd
  obtain ⟨-, k | k | k⟩ := F.arc h hd.1 hd.2.1 hd.2.2.1
  · exact hd.2.2.2.1 (congrArg Prod.fst k)
  · exact hd.2.2.2.2.1 (congrArg Prod.fst k)
  · exact hd.2.2.2.2.2 (congrArg Prod.fst k)

theorem _root_.Spec.Giving.member {v' : Nat} (h : Member t v v') : v' = v := by
  rcases h with rfl | h | h
  · rfl
  all_goals
    rcases F.only _ _ h (by decide) with k | k | k <;> exact absurd (congrArg Prod.fst k) (by simp)

theorem _root_.Spec.Giving.isSubj {p x : Nat} (h : (.SUBJ, x) ∈ t.children p) : p = v ∧ x = s := by
  obtain ⟨e, k | k | k⟩ := F.arc h (by decide) (by decide) (by decide)
  · exact ⟨e, congrArg Prod.snd k⟩
  all_goals exact absurd (congrArg Prod.fst k) (by simp)

theorem _root_.Spec.Giving.isObj {p x : Nat} (h : (.OBJ, x) ∈ t.children p) : p = v ∧ x = o := by
  obtain ⟨e, k | k | k⟩ := F.arc h (by decide) (by decide) (by decide)
  · exact absurd (congrArg Prod.fst k) (by simp)
  · exact absurd (congrArg Prod.fst k) (by simp)
  · exact ⟨e, congrArg Prod.snd k⟩

theorem _root_.Spec.Giving.hangs {v' x : Nat} : Hangs t .IOBJ v' x ↔ v' = v ∧ Member t r x := by
  constructor
  · rintro ⟨y, h, m⟩
    obtain ⟨e, k | k | k⟩ := F.arc h (by decide) (by decide) (by decide)
    · exact absurd (congrArg Prod.fst k) (by simp)
    · cases congrArg Prod.snd k
      exact ⟨e, m⟩
    · exact absurd (congrArg Prod.fst k) (by simp)
  · rintro ⟨rfl, m⟩
    exact ⟨r, F.recipient, m⟩

theorem _root_.Spec.Giving.fixed {i : Nat} : ¬ Exactly.Correctable tg t i := by
  rintro ⟨-, p, ⟨k, -⟩ | k | k⟩ <;> exact F.none (by decide) k

theorem _root_.Spec.Giving.acts (ho : o ≠ v) {v' x : Nat} : Exactly.Acts ck c tokens tg t v' x ↔ v' = v ∧ Member t s x := by
  have rel : ∀ {v i n : Nat}, ¬ Exactly.RelativeTo ck c tokens tg t v i n := fun ⟨_, k, _⟩ => F.none (by decide) k
  have noObj : ∀ {p : Nat}, (.OBJ, v) ∉ t.children p := fun h => ho (F.isObj h).2.symm
  constructor
  · rintro ⟨v₀, s₀, h1, h2, h3⟩
    have : v₀ = v ∧ s₀ = s := by
      rcases h1 with ⟨i, h1, h4⟩ | ⟨p, k, -⟩
      · obtain ⟨rfl, rfl⟩ := F.isSubj h1
        refine ⟨rfl, ?_⟩
        rcases h4 with h4 | ⟨-, -, p, h4, -⟩ | ⟨-, -, h4⟩
        · exact absurd h4 rel
        · exact absurd h4 noObj
        · exact h4
      · exact absurd k (F.none (by decide))
    obtain ⟨rfl, rfl⟩ := this
    refine ⟨?_, h2⟩
    rcases h3 with rfl | ⟨h3, -⟩
    · rfl
    · exact F.member h3
  · rintro ⟨rfl, h⟩
    exact ⟨_, s, .inl ⟨s, F.subj, .inr (.inr ⟨fun _ => rel, fun y ⟨_, p, k, _⟩ => noObj k, rfl⟩)⟩, h, .inl rfl⟩

theorem _root_.Spec.Giving.undergoes (hself : ¬ Exactly.Self ck c tokens tg t o) {v' x : Nat} :
    Exactly.Undergoes ck c tokens tg t v' x ↔ v' = v ∧ Member t o x := by
  have rel : ∀ {v i n : Nat}, ¬ Exactly.RelativeTo ck c tokens tg t v i n := fun ⟨_, k, _⟩ => F.none (by decide) k
  constructor
  · rintro ⟨v₀, s₀, h1, h2, h3⟩
    have : v₀ = v ∧ s₀ = o := by
      rcases h1 with ⟨i, h1, h4⟩ | ⟨_, _, _, k, -⟩
      · obtain ⟨rfl, rfl⟩ := F.isObj h1
        refine ⟨rfl, ?_⟩
        rcases h4 with h4 | ⟨-, h4, -⟩ | ⟨-, -, h4⟩
        · exact absurd h4 rel
        · exact absurd h4 hself
        · exact h4
      · exact absurd k (F.none (by decide))
    obtain ⟨rfl, rfl⟩ := this
    refine ⟨?_, h2⟩
    rcases h3 with rfl | ⟨h3, -⟩
    · rfl
    · exact F.member h3
  · rintro ⟨rfl, h⟩
    exact ⟨_, o, .inl ⟨o, F.obj, .inr (.inr ⟨fun _ => rel, fun y k => hself k.1, rfl⟩)⟩, h, .inl rfl⟩

end Model
