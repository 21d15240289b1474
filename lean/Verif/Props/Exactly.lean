import Verif.Lemmas.ExactSaid
import Verif.Props.Flats
import Verif.Props.Moved

/-! C130: exactly what the parse states is reported. -/

namespace Props
open Py Model Spec

variable {ck : Bool} {c : Logic} {tokens tokens' : List Str} {tg tg' : List Tag} {t t' : Tree Dep Nat} {ts ts' : List STuple}

/-- **C130.** In a parse where every token is a word of its own or a function word that carries nothing, the tuples of the sentence
are exactly those that tokens and arcs state. -/
theorem C130_exact (H : Reports ck c tokens tg t ts) (T : NeatParse t) (x : STuple) :
    x ∈ ts ↔ Exactly.Stated ck c tokens tg t x.args := by
  obtain ⟨h, h', nt, nodes, pos, L, A, E⟩ := H.linked
  rw [E, L.said_iff A T]

/-- **C130.** A statement of who does what to whom is reported exactly when a main clause says so: its verb has the first argument
among those who act and the second among those who undergo; or a past participle with the first argument after "by" describes the
second or is said of it. -/
theorem C130_transitive (H : Reports ck c tokens tg t ts) (T : NeatParse t) {a b : Argument} {w : Str} {pol : Bool} :
    STuple.mk [a, ⟨w, c!"T", pol⟩, b] ∈ ts ↔
      ∃ s v o, Exactly.Named ck c tokens tg t s a ∧ Exactly.Named ck c tokens tg t o b ∧
        pol = affirmed [positive t s, positive t v, positive t o] ∧
        ((Exactly.MainClause ck c tokens tg t v w ∧ Exactly.Acts ck c tokens tg t v s ∧ Exactly.Undergoes ck c tokens tg t v o) ∨
          (Exactly.ActiveOf c tokens tg t v w ∧ Exactly.Agent c tokens t v s ∧
            (Exactly.Describes c tokens tg t o v ∨ ∃ q, Exactly.Linking ck c tokens tg t o q v))) := by
  rw [C130_exact H T]
  constructor
  · intro this
    generalize hl : (STuple.mk [a, (⟨w, c!"T", pol⟩ : Argument), b]).args = l at this
    cases this with
    | clauseIntr | clauseTrans | clauseProp | intr | recip => simp at hl
    | passive | indirect | copula | participle | adjective => simp at hl
    | @trans s v o w' _ _ h1 h2 h3 h4 h5 =>
      simp at hl
      obtain ⟨rfl, ⟨rfl, rfl⟩, rfl⟩ := hl
      exact ⟨s, v, o, h4, h5, rfl, Or.inl ⟨h1, h2, h3⟩⟩
    | @copulaActive n v p w' x _ _ h1 h2 h3 h4 h5 =>
      simp at hl
      obtain ⟨rfl, ⟨rfl, rfl⟩, rfl⟩ := hl
      exact ⟨x, p, n, h4, h5, rfl, Or.inr ⟨h2, h3, Or.inr ⟨v, h1⟩⟩⟩
    | @adjectiveActive n p w' x _ _ h1 h2 h3 h4 h5 =>
      simp at hl
      obtain ⟨rfl, ⟨rfl, rfl⟩, rfl⟩ := hl
      exact ⟨x, p, n, h4, h5, rfl, Or.inr ⟨h2, h3, Or.inl h1⟩⟩
  · rintro ⟨s, v, o, h1, h2, rfl, ⟨h3, h4, h5⟩ | ⟨h3, h4, h5 | ⟨q, h5⟩⟩⟩
    · exact .trans h3 h4 h5 h1 h2
    · exact .adjectiveActive h5 h3 h4 h1 h2
    · exact .copulaActive h5 h3 h4 h1 h2

/-- **C130.** "Songs are sung": what undergoes the verb of a main clause is reported with the past participle too, unless the verb
is "have" or "get". -/
theorem C130_passive (H : Reports ck c tokens tg t ts) (T : NeatParse t) {v o : Nat} {w q : Str} {a : Argument} {l : List Bool}
    (hv : Exactly.MainClause ck c tokens tg t v w) (hw : w ∉ [c!"have", c!"get"]) (ho : Exactly.Undergoes ck c tokens tg t v o)
    (hq : ParticipleOf c tokens tg t v q) (hl : Exactly.ActorPolarity ck c tokens tg t v l) (ha : Exactly.Named ck c tokens tg t o a) :
    STuple.mk [a, ⟨c!"be", c!"C", affirmed (l ++ [positive t v, positive t o])⟩, ⟨q, c!"L", true⟩] ∈ ts :=
  (C130_exact H T _).mpr (.passive hv.1.1 hw ho hq hl ha)

/-- **C130.** Two sentences have the same tuples exactly when their parses state the same. -/
theorem C130_same (H : Reports ck c tokens tg t ts) (T : NeatParse t) (H' : Reports ck c tokens' tg' t' ts') (T' : NeatParse t') :
    (∀ x, x ∈ ts ↔ x ∈ ts') ↔ ∀ args, Exactly.Stated ck c tokens tg t args ↔ Exactly.Stated ck c tokens' tg' t' args := by
  constructor
  · intro h args
    rw [← C130_exact H T ⟨args⟩, ← C130_exact H' T' ⟨args⟩, h]
  · intro h x
    rw [C130_exact H T, C130_exact H' T', h]

/-! ### Examples -/

/-- "Foxes who bake themselves are not baked by formats." states "format bake fox", after "by". -/
example : Exactly.Stated ck demoLogic bakedFoxes.tokens bakedFoxes.tags bakedFoxes.tree
    [⟨c!"format", c!"N", true⟩, ⟨c!"bake", c!"T", true⟩, ⟨c!"fox", c!"N", true⟩] :=
  (C130_exact (Demo.reports bakedFoxes_parsed) (Demo.neat bakedFoxes_parsed (by decide)) ⟨_⟩).mp (by cases ck <;> decide +kernel)

/-- It does not state that foxes bake formats. -/
example : ¬ Exactly.Stated ck demoLogic bakedFoxes.tokens bakedFoxes.tags bakedFoxes.tree
    [⟨c!"fox", c!"N", true⟩, ⟨c!"bake", c!"T", true⟩, ⟨c!"format", c!"N", true⟩] := fun k =>
  absurd ((C130_exact (Demo.reports bakedFoxes_parsed) (Demo.neat bakedFoxes_parsed (by decide)) ⟨_⟩).mpr k)
    (by cases ck <;> decide +kernel)

/-- "Foxes baked formats": who acts and who undergoes, read off the tokens. -/
example : STuple.mk [⟨c!"fox", c!"N", true⟩, ⟨c!"bake", c!"T", true⟩, ⟨c!"format", c!"N", true⟩] ∈ plainFoxes.tuples ck := by
  have h := plainFoxes_parsed
  have none : ∀ {d : Dep} {k x : Nat}, (d, x) ∈ plainFoxes.tree.children k → d = .SUBJ ∧ k = 1 ∧ x = 0 ∨ d = .OBJ ∧ k = 1 ∧ x = 2 := by
    intro d k x hx
    rw [Demo.mem h] at hx
    simpa [plainFoxes] using hx
  have free : ∀ {i : Nat}, ¬ Exactly.Correctable plainFoxes.tags plainFoxes.tree i := by
    rintro i ⟨-, p, ⟨k, -⟩ | k | k⟩ <;> rcases none k with ⟨e, -⟩ | ⟨e, -⟩ <;> exact absurd e (by decide)
  have simple : ∀ {i : Nat} {w : Str}, ¬ Exactly.Compounds demoLogic plainFoxes.tokens plainFoxes.tags plainFoxes.tree i w := by
    rintro i w ⟨⟨x, k, -⟩, -⟩
    rcases none k with ⟨e, -⟩ | ⟨e, -⟩ <;> exact absurd e (by decide)
  have alone : ∀ {a b : Nat}, Member plainFoxes.tree a b → b = a := by
    rintro a b (rfl | k | k)
    · rfl
    all_goals rcases none k with ⟨e, -⟩ | ⟨e, -⟩ <;> exact absurd e (by decide)
  have l0 : LemmaOf demoLogic plainFoxes.tokens plainFoxes.tags 0 c!"fox" :=
    ⟨c!"foxes", .NOUN, some .PLURAL, ⟨c!"Foxes", rfl, by decide +kernel⟩, rfl, by decide +kernel⟩
  have l1 : LemmaOf demoLogic plainFoxes.tokens plainFoxes.tags 1 c!"bake" :=
    ⟨c!"baked", .VERB, some .PAST, ⟨c!"baked", rfl, by decide +kernel⟩, rfl, by decide +kernel⟩
  have l2 : LemmaOf demoLogic plainFoxes.tokens plainFoxes.tags 2 c!"format" :=
    ⟨c!"formats", .NOUN, some .PLURAL, ⟨c!"formats", rfl, by decide +kernel⟩, rfl, by decide +kernel⟩
  have n0 : Exactly.Named ck demoLogic plainFoxes.tokens plainFoxes.tags plainFoxes.tree 0 ⟨c!"fox", c!"N", true⟩ :=
    ⟨.NOUN, .noun (.same l0 rfl fun k => absurd k free) (fun _ _ => simple) l0, by decide, .noun (by decide) (by decide) (by decide) (by decide), rfl⟩
  have n2 : Exactly.Named ck demoLogic plainFoxes.tokens plainFoxes.tags plainFoxes.tree 2 ⟨c!"format", c!"N", true⟩ :=
    ⟨.NOUN, .noun (.same l2 rfl fun k => absurd k free) (fun _ _ => simple) l2, by decide, .noun (by decide) (by decide) (by decide) (by decide), rfl⟩
  have w1 : Exactly.Written ck demoLogic plainFoxes.tokens plainFoxes.tags plainFoxes.tree 1 .VERB c!"bake" :=
    .particles (.same l1 rfl fun k => absurd k free) (.inl rfl) l1 (Demo.noParts h (by decide))
  have rel : ∀ {v i n : Nat}, ¬ Exactly.RelativeTo ck demoLogic plainFoxes.tokens plainFoxes.tags plainFoxes.tree v i n := by
    rintro v i n ⟨-, k, -⟩
    rcases none k with ⟨e, -⟩ | ⟨e, -⟩ <;> exact absurd e (by decide)
  have self2 : ¬ Exactly.Self ck demoLogic plainFoxes.tokens plainFoxes.tags plainFoxes.tree 2 := by
    rintro ⟨tag, w, hw, k⟩
    have ht : ∀ {tag : Tag}, Exactly.Taken demoLogic plainFoxes.tokens plainFoxes.tags plainFoxes.tree 2 tag → tag = .NOUN := by
      intro tag k
      cases k with
      | adjective _ _ k | noun _ _ k => exact absurd k free
      | same _ k => exact (Option.some.inj k).symm
    have hl : ∀ {l : Str}, LemmaOf demoLogic plainFoxes.tokens plainFoxes.tags 2 l → l = c!"format" := fun k => LemmaOf_unique k l2
    cases k with
    | particles k1 k2 => rw [ht k1] at k2; exact absurd k2 (by decide)
    | pronoun k1 => exact absurd (ht k1) (by decide)
    | compound _ _ k => exact simple k
    | noun _ _ k => rw [hl k] at hw; exact absurd hw (by decide)
    | other k1 k2 => rw [ht k1] at k2; exact absurd k2 (by decide)
  have acts : Exactly.Acts ck demoLogic plainFoxes.tokens plainFoxes.tags plainFoxes.tree 1 0 :=
    ⟨1, 0, .inl ⟨0, (Demo.mem h _ _ _).mpr (by decide), .inr (.inr ⟨fun _ => rel, fun y k => by
      obtain ⟨-, p, k, -⟩ := k
      rcases none k with ⟨e, -⟩ | ⟨-, -, e⟩ <;> exact absurd e (by decide), rfl⟩)⟩, .inl rfl, .inl rfl⟩
  have undergoes : Exactly.Undergoes ck demoLogic plainFoxes.tokens plainFoxes.tags plainFoxes.tree 1 2 :=
    ⟨1, 2, .inl ⟨2, (Demo.mem h _ _ _).mpr (by decide), .inr (.inr ⟨fun _ => rel, fun y k => self2 k.1, rfl⟩)⟩, .inl rfl, .inl rfl⟩
  have main : Exactly.MainClause ck demoLogic plainFoxes.tokens plainFoxes.tags plainFoxes.tree 1 c!"bake" := by
    refine ⟨⟨⟨w1, ?_, ?_, ?_⟩, ?_⟩, ?_⟩
    · intro x k; rcases none k with ⟨e, -⟩ | ⟨e, -⟩ <;> exact absurd e (by decide)
    · intro x k; rcases none k with ⟨e, -⟩ | ⟨e, -⟩ <;> exact absurd e (by decide)
    · intro x k; rcases none k with ⟨e, -⟩ | ⟨e, -⟩ <;> exact absurd e (by decide)
    · rintro ⟨x, tok, -, k, -⟩
      rcases none k with ⟨e, -⟩ | ⟨e, -⟩ <;> exact absurd e (by decide)
    · rintro s v w u ⟨-, -, -, ⟨v', o, hO, hm, -⟩, -⟩
      cases alone hm
      rcases hO with ⟨i, k, hi⟩ | ⟨_, _, _, k, -⟩
      · obtain ⟨e, -⟩ | ⟨-, rfl, rfl⟩ := none k
        · exact absurd e (by decide)
        rcases hi with k | ⟨-, k, -⟩ | ⟨-, -, e⟩
        · exact rel k
        · exact self2 k
        · exact absurd e (by decide)
      · rcases none k with ⟨e, -⟩ | ⟨e, -⟩ <;> exact absurd e (by decide)
  exact (C130_transitive (Demo.reports h) (Demo.neat h (by decide))).mpr
    ⟨0, 1, 2, n0, n2, by decide +kernel, .inl ⟨main, acts, undergoes⟩⟩

end Props
