import Verif.Spec.Described
import Verif.Lemmas.Simple

/-! Lemmas for sentences whose nouns have adjectives. -/

namespace Model
open Py Spec

variable {ck : Bool} {c : Logic} {tokens : List Str} {tg : List Tag} {t : Tree Dep Nat} {v s o : Nat}

theorem written_taken {i : Nat} {tag : Tag} {w : Str} (h : Exactly.Written ck c tokens tg t i tag w) : Exactly.Taken c tokens tg t i tag := by
  cases h <;> assumption

section
variable (F : Described c tokens tg t v s o)
include F

theorem _root_.Spec.Described.arc {i x : Nat} {d : Dep} (h : (d, x) ∈ t.children i) (hd : d ∉ functional ++ [.AND, .OR, .CPL]) :
    i = v ∧ ((d, x) = (.SUBJ, s) ∨ (d, x) = (.OBJ, o)) := by
  simp only [List.mem_append, List.mem_cons, List.not_mem_nil, or_false, not_or] at hd
  by_cases e : i = v
  · subst e
    exact ⟨rfl, F.only d x h hd.1⟩
  · rcases F.others i d x h e hd.1 with k | k | k
    · exact absurd k hd.2.1
    · exact absurd k hd.2.2.1
    · exact absurd k hd.2.2.2

theorem _root_.Spec.Described.none {i x : Nat} {d : Dep} (hd : d ∉ functional ++ [.AND, .OR, .CPL]) (h1 : d ≠ .SUBJ) (h2 : d ≠ .OBJ) :
    (d, x) ∉ t.children i := by
  intro h
  obtain ⟨-, k | k⟩ := F.arc h hd
  · exact h1 (congrArg Prod.fst k)
  · exact h2 (congrArg Prod.fst k)

theorem _root_.Spec.Described.isSubj {i x : Nat} (h : (.SUBJ, x) ∈ t.children i) : i = v ∧ x = s := by
  obtain ⟨e, k | k⟩ := F.arc h (by decide)
  · exact ⟨e, congrArg Prod.snd k⟩
  · exact absurd (congrArg Prod.fst k) (by simp)

theorem _root_.Spec.Described.isObj {i x : Nat} (h : (.OBJ, x) ∈ t.children i) : i = v ∧ x = o := by
  obtain ⟨e, k | k⟩ := F.arc h (by decide)
  · exact absurd (congrArg Prod.fst k) (by simp)
  · exact ⟨e, congrArg Prod.snd k⟩

theorem _root_.Spec.Described.member {v' : Nat} (h : Member t v v') : v' = v := by
  rcases h with rfl | h | h
  · rfl
  all_goals
    rcases F.only _ _ h (by decide) with k | k <;> exact absurd (congrArg Prod.fst k) (by simp)

/-- Adjectives stay adjectives. -/
theorem _root_.Spec.Described.taken {i x : Nat} (h : (.CPL, x) ∈ t.children i) {tag : Tag} (k : Exactly.Taken c tokens tg t x tag) : tag = .ADJ := by
  obtain ⟨-, h1, l, h2, h3⟩ := F.adj i x h
  cases k with
  | adjective => rfl
  | noun k1 _ _ k2 => rw [LemmaOf_unique k1 h2] at k2; exact absurd k2 h3
  | same _ k1 => rw [h1] at k1; exact (Option.some.inj k1).symm

theorem _root_.Spec.Described.isAdj {i x : Nat} (h : (.CPL, x) ∈ t.children i) : Exactly.Taken c tokens tg t x .ADJ := by
  obtain ⟨-, h1, l, h2, h3⟩ := F.adj i x h
  exact .same h2 h1 fun _ => ⟨fun k => absurd k (by decide), fun _ => h3⟩

theorem _root_.Spec.Described.noCompound {i : Nat} {w : Str} : ¬ Exactly.Compounds c tokens tg t i w := by
  rintro ⟨⟨x, k, -, -, ⟨tag, hm, tk⟩, -⟩, -⟩
  cases F.taken k tk
  exact absurd hm (by decide)

theorem _root_.Spec.Described.fixed {i : Nat} {tag : Tag} (h : tg[i]? = some tag) (ht : tag ≠ .ADJ) : ¬ Exactly.Correctable tg t i := by
  rintro ⟨-, q, ⟨k, -⟩ | k | k⟩
  · have := (F.adj _ _ k).2.1
    rw [h] at this
    exact ht (Option.some.inj this)
  · exact F.none (by decide) (by decide) (by decide) k
  · exact F.none (by decide) (by decide) (by decide) k

theorem _root_.Spec.Described.noRelative (hv : tg[v]? = some .VERB) {i n : Nat} : ¬ Exactly.RelativeTo ck c tokens tg t v i n := by
  rintro ⟨-, k, -⟩
  have := (F.adj _ _ k).2.1
  rw [hv] at this
  cases this

theorem _root_.Spec.Described.acts (hv : tg[v]? = some .VERB) (hov : o ≠ v) {v' x : Nat} :
    Exactly.Acts ck c tokens tg t v' x ↔ v' = v ∧ Member t s x := by
  have noObj : ∀ {p : Nat}, (.OBJ, v) ∉ t.children p := fun h => hov (F.isObj h).2.symm
  constructor
  · rintro ⟨v₀, s₀, h1, h2, h3⟩
    have : v₀ = v ∧ s₀ = s := by
      rcases h1 with ⟨i, h1, h4⟩ | ⟨p, k, -, k2, -⟩
      · obtain ⟨rfl, rfl⟩ := F.isSubj h1
        refine ⟨rfl, ?_⟩
        rcases h4 with h4 | ⟨-, -, p, h4, -⟩ | ⟨-, -, h4⟩
        · exact absurd h4 (F.noRelative hv)
        · exact absurd h4 noObj
        · exact h4
      · cases F.taken k k2
    obtain ⟨rfl, rfl⟩ := this
    refine ⟨?_, h2⟩
    rcases h3 with rfl | ⟨h3, -⟩
    · rfl
    · exact F.member h3
  · rintro ⟨rfl, h⟩
    exact ⟨_, s, .inl ⟨s, F.subj, .inr (.inr ⟨fun _ => F.noRelative hv, fun y ⟨_, p, k, _⟩ => noObj k, rfl⟩)⟩, h, .inl rfl⟩

theorem _root_.Spec.Described.undergoes (hv : tg[v]? = some .VERB) (hself : ¬ Exactly.Self ck c tokens tg t o) {v' x : Nat} :
    Exactly.Undergoes ck c tokens tg t v' x ↔ v' = v ∧ Member t o x := by
  constructor
  · rintro ⟨v₀, s₀, h1, h2, h3⟩
    have : v₀ = v ∧ s₀ = o := by
      rcases h1 with ⟨i, h1, h4⟩ | ⟨_, _, _, k, -, -, -, k2, -⟩
      · obtain ⟨rfl, rfl⟩ := F.isObj h1
        refine ⟨rfl, ?_⟩
        rcases h4 with h4 | ⟨-, h4, -⟩ | ⟨-, -, h4⟩
        · exact absurd h4 (F.noRelative hv)
        · exact absurd h4 hself
        · exact h4
      · obtain ⟨rfl, -⟩ := F.isSubj (firstArc k2)
        have := (F.adj _ _ k).2.1
        rw [hv] at this
        cases this
    obtain ⟨rfl, rfl⟩ := this
    refine ⟨?_, h2⟩
    rcases h3 with rfl | ⟨h3, -⟩
    · rfl
    · exact F.member h3
  · rintro ⟨rfl, h⟩
    exact ⟨_, o, .inl ⟨o, F.obj, .inr (.inr ⟨fun _ => F.noRelative hv, fun y k => hself k.1, rfl⟩)⟩, h, .inl rfl⟩

theorem _root_.Spec.Described.notSelf {i : Nat} (ht : ∃ tag ∈ nominal, tg[i]? = some tag)
    (hl : ∀ l, LemmaOf c tokens tg i l → l ∉ reflexives) : ¬ Exactly.Self ck c tokens tg t i := by
  obtain ⟨tag, hm, ht⟩ := ht
  have hn : ¬ Exactly.Correctable tg t i := F.fixed ht (by rintro rfl; exact absurd hm (by decide))
  rintro ⟨tag', w, hw, h1⟩
  cases h1 with
  | particles k1 k =>
    obtain ⟨rfl, -⟩ := taken_fixed hn ht k1
    rcases k with rfl | rfl <;> exact absurd hm (by decide)
  | @pronoun l k1 k2 =>
    have h0 := hl _ k2
    unfold Props.subjectOf at hw
    split_ifs at hw <;> simp only [Option.getD_some, Option.getD_none] at hw <;> first | exact h0 hw | exact absurd hw (by decide)
  | compound _ _ k => exact F.noCompound k
  | noun _ _ k => exact hl _ k hw
  | other _ _ k => exact hl _ k hw

theorem _root_.Spec.Described.named {i : Nat} (ht : ∃ tag ∈ nominal, tg[i]? = some tag) {a : Argument} :
    Exactly.Named ck c tokens tg t i a ↔ Noun c tokens tg i a := by
  obtain ⟨tag, hm, h⟩ := ht
  exact simple_named (F.fixed h (by rintro rfl; exact absurd hm (by decide))) (fun _ => F.noCompound) ⟨tag, hm, h⟩

end
end Model
