import Verif.Spec.Existing
import Verif.Lemmas.Simple

/-! Lemmas for sentences that only say that something exists. -/

namespace Model
open Py Spec

variable {ck : Bool} {c : Logic} {tokens : List Str} {tg : List Tag} {t : Tree Dep Nat} {v e : Nat}
variable (F : Existing t v e)
include F

theorem _root_.Spec.Existing.none {i x : Nat} {d : Dep} (hd : d ∉ functional ++ [.AND, .OR, .EXIST, .SUBJ, .OBJ, .IOBJ]) :
    (d, x) ∉ t.children i := by
  intro h
  simp only [List.mem_append, List.mem_cons, List.not_mem_nil, or_false, not_or] at hd
  by_cases k : i = v
  · subst k
    have := F.only d x h hd.1
    simp only [List.mem_cons, List.not_mem_nil, or_false] at this
    tauto
  · rcases F.others i d x h k hd.1 with k | k
    · exact hd.2.1 k
    · exact hd.2.2.1 k

theorem _root_.Spec.Existing.of {i x : Nat} {d : Dep} (h : (d, x) ∈ t.children i) (hd : d ∉ functional ++ [.AND, .OR]) : i = v := by
  simp only [List.mem_append, List.mem_cons, List.not_mem_nil, or_false, not_or] at hd
  by_contra k
  rcases F.others i d x h k hd.1 with k | k
  · exact hd.2.1 k
  · exact hd.2.2 k

theorem _root_.Spec.Existing.member {v' : Nat} (h : Member t v v') : v' = v := by
  rcases h with rfl | h | h
  · rfl
  all_goals exact absurd (F.only _ _ h (by decide)) (by decide)

theorem _root_.Spec.Existing.acts {v' x : Nat} (h : Exactly.Acts ck c tokens tg t v' x) : v' = v := by
  obtain ⟨v₀, s₀, h1, -, h3⟩ := h
  have : v₀ = v := by
    rcases h1 with ⟨i, h1, -⟩ | ⟨_, k, -⟩
    · exact F.of h1 (by decide)
    · exact absurd k (F.none (by decide))
  subst this
  rcases h3 with rfl | ⟨h3, -⟩
  · rfl
  · exact F.member h3

theorem _root_.Spec.Existing.undergoes {v' x : Nat} (h : Exactly.Undergoes ck c tokens tg t v' x) : v' = v := by
  obtain ⟨v₀, s₀, h1, -, h3⟩ := h
  have : v₀ = v := by
    rcases h1 with ⟨i, h1, -⟩ | ⟨_, _, _, k, -⟩
    · exact F.of h1 (by decide)
    · exact absurd k (F.none (by decide))
  subst this
  rcases h3 with rfl | ⟨h3, -⟩
  · rfl
  · exact F.member h3

end Model
