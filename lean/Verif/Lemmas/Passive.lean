import Verif.Spec.Passive
import Verif.Lemmas.Simple

/-! Lemmas for simple passive sentences. -/

namespace Model
open Py Spec

variable {ck : Bool} {c : Logic} {tokens : List Str} {tg : List Tag} {t : Tree Dep Nat} {v s p y : Nat}

theorem pastForm_unique {i : Nat} {w w' : Str} (h : PastForm c tokens t i w) (h' : PastForm c tokens t i w') : w = w' := by
  obtain ⟨-, s, l, ps, h1, h2, h3, rfl⟩ := h
  obtain ⟨-, s', l', ps', g1, g2, g3, rfl⟩ := h'
  obtain ⟨tok, e1, e2⟩ := h1
  obtain ⟨tok', e1', e2'⟩ := g1
  rw [e1] at e1'
  cases e1'
  rw [e2] at e2'
  cases e2'
  rw [h2] at g2
  cases g2
  rw [PartWords_unique h3 g3]

theorem adjectiveBy_unique {i : Nat} {q q' : Str} (h : AdjectiveBy c tokens tg t i q) (h' : AdjectiveBy c tokens tg t i q') : q = q' := by
  obtain ⟨l, ps, -, h1, h2, rfl⟩ := h
  obtain ⟨l', ps', -, h1', h2', rfl⟩ := h'
  rw [LemmaOf_unique h1 h1', PartWords_unique h2 h2']

theorem written_tag {i : Nat} {tag tag' : Tag} {w : Str} (hn : ¬ Exactly.Correctable tg t i) (ht : tg[i]? = some tag)
    (h : Exactly.Written ck c tokens tg t i tag' w) : tag' = tag := by
  cases h with
  | particles k | pronoun k | compound k | noun k | other k => exact (taken_fixed hn ht k).1

theorem adjective_written {i : Nat} {w : Str} (hn : ¬ Exactly.Correctable tg t i) (ht : tg[i]? = some .ADJ) :
    Exactly.Written ck c tokens tg t i .ADJ w ↔ AdjectiveBy c tokens tg t i w := by
  constructor
  · intro h
    cases h with
    | particles h1 h2 h3 h4 => exact ⟨_, _, ht, h3, h4, rfl⟩
    | other _ h => exact absurd h (by decide)
  · rintro ⟨l, ps, -, h1, h2, rfl⟩
    exact .particles (.same h1 ht fun k => absurd k hn) (Or.inr rfl) h1 h2

theorem positive_of {i : Nat} (h : ∀ x, (.NEG, x) ∉ t.children i) : positive t i = true := by
  unfold positive
  rw [List.all_eq_true]
  intro x hx
  have : x.1 ≠ .NEG := fun e => h x.2 (by rw [← e]; exact hx)
  simp [this]

variable (F : PassiveFrame c tokens t v s p y)
include F

theorem _root_.Spec.PassiveFrame.arc {q x : Nat} {d : Dep} (h : (d, x) ∈ t.children q) (hd : d ∉ functional) (ha : d ≠ .AND)
    (ho : d ≠ .OR) : q = v ∧ ((d, x) = (.SUBJ, s) ∨ (d, x) = (.PROP, p)) ∨ q = p ∧ (d, x) = (.CPL, y) := by
  by_cases e : q = v
  · subst e
    exact .inl ⟨rfl, F.only d x h hd⟩
  · by_cases e' : q = p
    · subst e'
      exact .inr ⟨rfl, F.onlyAgent d x h hd⟩
    · rcases F.others q d x h e e' hd with k | k
      · exact absurd k ha
      · exact absurd k ho

theorem _root_.Spec.PassiveFrame.cpl {q x : Nat} (h : (.CPL, x) ∈ t.children q) : q = p ∧ x = y := by
  rcases F.arc h (by decide) (by decide) (by decide) with ⟨-, k | k⟩ | ⟨k, e⟩
  · exact absurd (congrArg Prod.fst k) (by simp)
  · exact absurd (congrArg Prod.fst k) (by simp)
  · exact ⟨k, congrArg Prod.snd e⟩

theorem _root_.Spec.PassiveFrame.prop_arc {q x : Nat} (h : (.PROP, x) ∈ t.children q) : q = v ∧ x = p := by
  rcases F.arc h (by decide) (by decide) (by decide) with ⟨k, e | e⟩ | ⟨-, e⟩
  · exact absurd (congrArg Prod.fst e) (by simp)
  · exact ⟨k, congrArg Prod.snd e⟩
  · exact absurd (congrArg Prod.fst e) (by simp)

theorem _root_.Spec.PassiveFrame.subj_arc {q x : Nat} (h : (.SUBJ, x) ∈ t.children q) : q = v ∧ x = s := by
  rcases F.arc h (by decide) (by decide) (by decide) with ⟨k, e | e⟩ | ⟨-, e⟩
  · exact ⟨k, congrArg Prod.snd e⟩
  · exact absurd (congrArg Prod.fst e) (by simp)
  · exact absurd (congrArg Prod.fst e) (by simp)

theorem _root_.Spec.PassiveFrame.none {q x : Nat} {d : Dep} (hd : d ∉ functional ++ [.AND, .OR, .SUBJ, .PROP, .CPL]) :
    (d, x) ∉ t.children q := by
  intro h
  simp only [List.mem_append, List.mem_cons, List.not_mem_nil, or_false, not_or] at hd
  rcases F.arc h hd.1 hd.2.1 hd.2.2.1 with ⟨-, e | e⟩ | ⟨-, e⟩
  · exact hd.2.2.2.1 (congrArg Prod.fst e)
  · exact hd.2.2.2.2.1 (congrArg Prod.fst e)
  · exact hd.2.2.2.2.2 (congrArg Prod.fst e)

theorem _root_.Spec.PassiveFrame.first {i : Nat} : Exactly.First t v .SUBJ i ↔ i = s := by
  have key : ∀ {i}, Exactly.First t v .SUBJ i → i = s := fun h => (F.subj_arc (firstArc h)).2
  refine ⟨key, ?_⟩
  rintro rfl
  cases e : (((t.children v).filter fun a => a.1 = .SUBJ).map Prod.snd).head? with
  | none =>
    rw [List.head?_eq_none_iff, List.map_eq_nil_iff, List.filter_eq_nil_iff] at e
    exact absurd (by simp) (e _ F.subj)
  | some x =>
    have : x = i := key e
    subst this
    exact e

theorem _root_.Spec.PassiveFrame.member {x : Nat} (h : Member t v x) : x = v := by
  rcases h with rfl | k | k
  · rfl
  all_goals rcases F.only _ _ k (by decide) with e | e <;> exact absurd (congrArg Prod.fst e) (by simp)

theorem _root_.Spec.PassiveFrame.member_participle {x : Nat} (h : Member t p x) : x = p := by
  rcases h with rfl | k | k
  · rfl
  all_goals exact absurd (congrArg Prod.fst (F.onlyAgent _ _ k (by decide))) (by simp)

/-- No tag is corrected. -/
theorem _root_.Spec.PassiveFrame.fixed {i : Nat} : ¬ Exactly.Correctable tg t i := by
  obtain ⟨m, tok, hm, -⟩ := F.by_
  rintro ⟨hb, q, ⟨k, -⟩ | k | k⟩
  · obtain ⟨-, rfl⟩ := F.cpl k
    cases hb _ _ (firstArc hm)
  · obtain ⟨-, rfl⟩ := F.prop_arc k
    cases hb _ _ F.agent
  · exact F.none (by decide) k

end Model
