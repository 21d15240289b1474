import Verif.Spec.Simple
import Verif.Lemmas.ExactSaid

/-! Lemmas for simple sentences: who acts and who undergoes. -/

namespace Model
open Py Spec

section
variable {ck : Bool} {c : Logic} {tokens : List Str} {tg : List Tag} {t : Tree Dep Nat} {v s : Nat} {rest : Option (Dep × Nat)}

theorem _root_.Spec.Frame.arc (F : Frame t v s rest) {p x : Nat} {d : Dep} (h : (d, x) ∈ t.children p) (hd : d ∉ functional)
    (ha : d ≠ .AND) (ho : d ≠ .OR) : p = v ∧ ((d, x) = (.SUBJ, s) ∨ some (d, x) = rest) := by
  by_cases e : p = v
  · subst e
    exact ⟨rfl, F.only d x h hd⟩
  · rcases F.others p d x h e hd with k | k
    · exact absurd k ha
    · exact absurd k ho

theorem _root_.Spec.Frame.none (F : Frame t v s rest) {p x : Nat} {d : Dep} (hd : d ∉ functional ++ [.AND, .OR, .SUBJ])
    (hr : ∀ y ∈ rest, y.1 ≠ d) : (d, x) ∉ t.children p := by
  intro h
  simp only [List.mem_append, List.mem_cons, List.not_mem_nil, or_false, not_or] at hd
  obtain ⟨-, k | k⟩ := F.arc h hd.1 hd.2.1 hd.2.2.1
  · exact hd.2.2.2 (congrArg Prod.fst k)
  · exact hr (d, x) (by rw [← k]; rfl) rfl

theorem taken_fixed {i : Nat} {tag tag' : Tag} (hn : ¬ Exactly.Correctable tg t i) (ht : tg[i]? = some tag)
    (h : Exactly.Taken c tokens tg t i tag') : tag' = tag ∧ ∃ l, LemmaOf c tokens tg i l := by
  cases h with
  | adjective _ _ k | noun _ _ k => exact absurd k hn
  | same h1 h2 => rw [ht] at h2; exact ⟨(Option.some.inj h2).symm, _, h1⟩

theorem simple_named {i : Nat} {a : Argument} (hn : ¬ Exactly.Correctable tg t i)
    (simple : ∀ w, ¬ Exactly.Compounds c tokens tg t i w) (ht : ∃ tag ∈ nominal, tg[i]? = some tag) :
    Exactly.Named ck c tokens tg t i a ↔ Noun c tokens tg i a := by
  obtain ⟨tag, hm, ht⟩ := ht
  constructor
  · rintro ⟨tag', h1, h2, h3, h4⟩
    generalize hw : a.word = w at h1
    cases h1 with
    | particles _ k => rcases k with rfl | rfl <;> exact absurd h2 (by decide)
    | pronoun k1 k2 =>
      obtain ⟨rfl, -⟩ := taken_fixed hn ht k1
      exact ⟨_, _, k2, ht, h2, h3, h4, by rw [if_pos rfl, hw]⟩
    | compound _ _ k => exact absurd k (simple _)
    | noun k1 _ k2 =>
      obtain ⟨rfl, -⟩ := taken_fixed hn ht k1
      exact ⟨_, _, k2, ht, h2, h3, h4, by rw [if_neg (by decide), hw]⟩
    | other k1 k2 k3 =>
      obtain ⟨rfl, -⟩ := taken_fixed hn ht k1
      refine ⟨_, _, k3, ht, h2, h3, h4, ?_⟩
      rw [if_neg, hw]
      rintro rfl
      exact k2 (by decide)
  · rintro ⟨l, tag', h1, h2, h3, h4, h5, h6⟩
    have tk : Exactly.Taken c tokens tg t i tag' := .same h1 h2 fun k => absurd k hn
    refine ⟨tag', ?_, h3, h4, h5⟩
    rw [h6]
    split
    · rename_i e
      subst e
      exact .pronoun tk h1
    · rename_i e
      by_cases e' : tag' = .NOUN
      · subst e'
        exact .noun tk (fun _ => simple) h1
      · refine .other tk ?_ h1
        intro k
        simp only [List.mem_cons, List.not_mem_nil, or_false] at k
        rcases k with rfl | rfl | rfl | rfl
        · exact absurd h3 (by decide)
        · exact absurd h3 (by decide)
        · exact e rfl
        · exact e' rfl

theorem noun_named {i : Nat} {a : Argument} (hn : ¬ Exactly.Correctable tg t i) (hc : ∀ p x, (.CPL, x) ∉ t.children p)
    (ht : ∃ tag ∈ nominal, tg[i]? = some tag) : Exactly.Named ck c tokens tg t i a ↔ Noun c tokens tg i a :=
  simple_named hn (fun _ ⟨⟨_, k, _⟩, _⟩ => hc _ _ k) ht

theorem said_written {i : Nat} {w : Str} (hn : ¬ Exactly.Correctable tg t i) (ht : tg[i]? = some .VERB) :
    Exactly.Written ck c tokens tg t i .VERB w ↔ SaidBy c tokens tg t i w := by
  constructor
  · intro h
    cases h with
    | particles h1 h2 h3 h4 => exact ⟨_, _, ht, h3, h4, rfl⟩
    | other _ h => exact absurd h (by decide)
  · rintro ⟨l, ps, -, h1, h2, rfl⟩
    exact .particles (.same h1 ht fun k => absurd k hn) (Or.inl rfl) h1 h2

theorem saidBy_unique {i : Nat} {w w' : Str} (h : SaidBy c tokens tg t i w) (h' : SaidBy c tokens tg t i w') : w = w' := by
  obtain ⟨l, ps, -, h1, h2, rfl⟩ := h
  obtain ⟨l', ps', -, h1', h2', rfl⟩ := h'
  rw [LemmaOf_unique h1 h1', PartWords_unique h2 h2']

theorem participleOf_unique {i : Nat} {q q' : Str} (h : ParticipleOf c tokens tg t i q) (h' : ParticipleOf c tokens tg t i q') :
    q = q' := by
  obtain ⟨l, p, ps, h1, h2, h3, rfl⟩ := h
  obtain ⟨l', p', ps', g1, g2, g3, rfl⟩ := h'
  cases LemmaOf_unique h1 g1
  rw [h2] at g2
  cases g2
  rw [PartWords_unique h3 g3]

theorem not_self {i : Nat} (hn : ¬ Exactly.Correctable tg t i) (hc : ∀ p x, (.CPL, x) ∉ t.children p)
    (ht : ∃ tag ∈ nominal, tg[i]? = some tag) (hl : ∀ l, LemmaOf c tokens tg i l → l ∉ reflexives) :
    ¬ Exactly.Self ck c tokens tg t i := by
  obtain ⟨tag, hm, ht⟩ := ht
  rintro ⟨tag', w, hw, h1⟩
  cases h1 with
  | particles k1 k =>
    obtain ⟨rfl, -⟩ := taken_fixed hn ht k1
    rcases k with rfl | rfl <;> exact absurd hm (by decide)
  | @pronoun l k1 k2 =>
    have h0 := hl _ k2
    unfold Props.subjectOf at hw
    split_ifs at hw <;> simp only [Option.getD_some, Option.getD_none] at hw <;> first | exact h0 hw | exact absurd hw (by decide)
  | compound _ _ k =>
    obtain ⟨⟨x, k, -⟩, -⟩ := k
    exact hc _ _ k
  | noun _ _ k => exact hl _ k hw
  | other _ _ k => exact hl _ k hw

theorem _root_.Spec.Frame.member (F : Frame t v s rest) (hr : ∀ y ∈ rest, y.1 ≠ .AND ∧ y.1 ≠ .OR) {v' : Nat} (h : Member t v v') :
    v' = v := by
  rcases h with rfl | h | h
  · rfl
  all_goals
    rcases F.only _ _ h (by decide) with k | k
    · exact absurd (congrArg Prod.fst k) (by simp)
    · have := hr (_, v') (by rw [← k]; rfl)
      simp at this

variable (F : Frame t v s rest) (hr : ∀ y ∈ rest, y.1 = .OBJ ∧ y.2 ≠ v ∨ y.1 = .PROP)
include F hr

theorem _root_.Spec.Frame.noCpl (p x : Nat) : (.CPL, x) ∉ t.children p :=
  F.none (by decide) fun y hy e => by rcases hr y hy with ⟨k, -⟩ | k <;> rw [k] at e <;> cases e

theorem _root_.Spec.Frame.noIprop (p x : Nat) : (.IPROP, x) ∉ t.children p :=
  F.none (by decide) fun y hy e => by rcases hr y hy with ⟨k, -⟩ | k <;> rw [k] at e <;> cases e

theorem _root_.Spec.Frame.acts {v' x : Nat} : Exactly.Acts ck c tokens tg t v' x ↔ v' = v ∧ Member t s x := by
  have rel : ∀ {v i n : Nat}, ¬ Exactly.RelativeTo ck c tokens tg t v i n := fun ⟨_, k, _⟩ => F.noCpl hr _ _ k
  have noObj : ∀ {p : Nat}, (.OBJ, v) ∉ t.children p := by
    intro p h
    obtain ⟨-, k | k⟩ := F.arc h (by decide) (by decide) (by decide)
    · exact absurd (congrArg Prod.fst k) (by simp)
    · rcases hr (.OBJ, v) (by rw [← k]; rfl) with ⟨-, e⟩ | e
      · exact e rfl
      · cases e
  constructor
  · rintro ⟨v₀, s₀, h1, h2, h3⟩
    have : v₀ = v ∧ s₀ = s := by
      rcases h1 with ⟨i, h1, h4⟩ | ⟨p, k, -⟩
      · obtain ⟨rfl, k⟩ := F.arc h1 (by decide) (by decide) (by decide)
        have : i = s := by
          rcases k with k | k
          · exact congrArg Prod.snd k
          · rcases hr (.SUBJ, i) (by rw [← k]; rfl) with ⟨e, -⟩ | e <;> cases e
        subst this
        refine ⟨rfl, ?_⟩
        rcases h4 with h4 | ⟨-, -, p, h4, -⟩ | ⟨-, -, h4⟩
        · exact absurd h4 rel
        · exact absurd h4 noObj
        · exact h4
      · exact absurd k (F.noCpl hr _ _)
    obtain ⟨rfl, rfl⟩ := this
    refine ⟨?_, h2⟩
    rcases h3 with rfl | ⟨h3, -⟩
    · rfl
    · exact F.member (fun y hy => by rcases hr y hy with ⟨e, -⟩ | e <;> rw [e] <;> decide) h3
  · rintro ⟨rfl, h⟩
    exact ⟨_, s, .inl ⟨s, F.subj, .inr (.inr ⟨fun _ => rel, fun y ⟨_, p, k, _⟩ => noObj k, rfl⟩)⟩, h, .inl rfl⟩

theorem _root_.Spec.Frame.fixed {i : Nat} (hp : ∀ y ∈ rest, y.1 = .PROP → y.2 ≠ i) : ¬ Exactly.Correctable tg t i := by
  rintro ⟨-, p, ⟨k, -⟩ | k | k⟩
  · exact F.noCpl hr _ _ k
  · obtain ⟨-, k | k⟩ := F.arc k (by decide) (by decide) (by decide)
    · exact absurd (congrArg Prod.fst k) (by simp)
    · exact hp (.PROP, i) (by rw [← k]; rfl) rfl rfl
  · exact F.noIprop hr _ _ k

end

section
variable {ck : Bool} {c : Logic} {tokens : List Str} {tg : List Tag} {t : Tree Dep Nat} {v s o : Nat}

theorem _root_.Spec.Frame.undergoes (F : Frame t v s (some (.OBJ, o))) (ho : o ≠ v) (hself : ¬ Exactly.Self ck c tokens tg t o) {v' x : Nat} :
    Exactly.Undergoes ck c tokens tg t v' x ↔ v' = v ∧ Member t o x := by
  have hr : ∀ y ∈ some (Dep.OBJ, o), y.1 = .OBJ ∧ y.2 ≠ v ∨ y.1 = .PROP := by rintro y ⟨⟩; exact .inl ⟨rfl, ho⟩
  have rel : ∀ {v i n : Nat}, ¬ Exactly.RelativeTo ck c tokens tg t v i n := fun ⟨_, k, _⟩ => F.noCpl hr _ _ k
  constructor
  · rintro ⟨v₀, s₀, h1, h2, h3⟩
    have : v₀ = v ∧ s₀ = o := by
      rcases h1 with ⟨i, h1, h4⟩ | ⟨_, _, _, k, -⟩
      · obtain ⟨rfl, k⟩ := F.arc h1 (by decide) (by decide) (by decide)
        have : i = o := by
          rcases k with k | k
          · exact absurd (congrArg Prod.fst k) (by simp)
          · exact congrArg Prod.snd (Option.some.inj k)
        subst this
        refine ⟨rfl, ?_⟩
        rcases h4 with h4 | ⟨-, h4, -⟩ | ⟨-, -, h4⟩
        · exact absurd h4 rel
        · exact absurd h4 hself
        · exact h4
      · exact absurd k (F.noCpl hr _ _)
    obtain ⟨rfl, rfl⟩ := this
    refine ⟨?_, h2⟩
    rcases h3 with rfl | ⟨h3, -⟩
    · rfl
    · exact F.member (fun y hy => by rcases hr y hy with ⟨e, -⟩ | e <;> rw [e] <;> decide) h3
  · rintro ⟨rfl, h⟩
    exact ⟨_, o, .inl ⟨o, F.also _ rfl, .inr (.inr ⟨fun _ => rel, fun y k => hself k.1, rfl⟩)⟩, h, .inl rfl⟩

theorem _root_.Spec.Frame.noObject {rest : Option (Dep × Nat)} (F : Frame t v s rest) (hr : ∀ y ∈ rest, y.1 = .PROP) {v' x : Nat} :
    ¬ Exactly.Undergoes ck c tokens tg t v' x := by
  rintro ⟨v₀, s₀, ⟨i, h1, -⟩ | ⟨_, _, _, k, -⟩, -⟩
  · exact F.none (by decide) (fun y hy e => by rw [hr y hy] at e; cases e) h1
  · exact F.noCpl (fun y hy => .inr (hr y hy)) _ _ k

theorem _root_.Spec.Frame.first {rest : Option (Dep × Nat)} (F : Frame t v s rest) (hr : ∀ y ∈ rest, y.1 ≠ .SUBJ) {i : Nat} :
    Exactly.First t v .SUBJ i ↔ i = s := by
  have key : ∀ {i}, Exactly.First t v .SUBJ i → i = s := by
    intro i h
    rcases F.only _ _ (firstArc h) (by decide) with k | k
    · exact congrArg Prod.snd k
    · exact absurd rfl (hr (.SUBJ, i) (by rw [← k]; rfl))
  refine ⟨key, ?_⟩
  rintro rfl
  cases e : (((t.children v).filter fun a => a.1 = .SUBJ).map Prod.snd).head? with
  | none =>
    rw [List.head?_eq_none_iff, List.map_eq_nil_iff, List.filter_eq_nil_iff] at e
    exact absurd (by simp) (e _ F.subj)
  | some x =>
    have : x = i := key e
    subst this
    exact e

end
end Model
