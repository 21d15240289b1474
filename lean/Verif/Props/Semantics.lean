import Verif.Lemmas.Semantics

/-! Properties of semantic tuples (C57-C61). -/

namespace Props
open Py Model Spec

/-- C57: extraction raises nothing on any nodes, and its tuples are exactly those the nodes say. -/
theorem C57_extraction_exact (pp : Str → Str) (h : Heap) (nodes : List Ref) :
    ∃ ts, extractTuples pp h nodes = .ok ts ∧ ∀ t, t ∈ ts ↔ Said pp h nodes t.args :=
  extractTuples_spec pp h nodes

section
variable {pp : Str → Str} {h : Heap} {nodes : List Ref} {ts : List STuple}

theorem said_of_mem (he : extractTuples pp h nodes = .ok ts) {t : STuple} (ht : t ∈ ts) : Said pp h nodes t.args := by
  obtain ⟨ts', h1, h2⟩ := C57_extraction_exact pp h nodes
  rw [he] at h1; cases h1
  exact (h2 t).mp ht

theorem IsNoun.code {r : Ref} {a : Argument} (ha : IsNoun h r a) : a.code ∈ nounCodes ∧ a.isAff = true := by
  rw [isNoun_iff] at ha; subst ha
  exact ⟨(nounArgCode_spec _).2, rfl⟩

theorem IsProp.code {r : Ref} {a : Argument} (ha : IsProp h r a) : a.code ∈ propCodes ∧ a.isAff = true := by
  rw [isProp_iff] at ha; subst ha
  exact ⟨propArgCode_mem _, rfl⟩

theorem IsAdj.code {r : Ref} {a : Argument} (ha : IsAdj h r a) : a.code ∈ propCodes ∧ a.isAff = true := by
  rw [isAdj_iff] at ha; subst ha
  exact ⟨adjArgCode_mem _, rfl⟩

/-- C57: the tuples have only the documented shapes, so 2 to 5 arguments. -/
theorem C57_shapes (he : extractTuples pp h nodes = .ok ts) : ∀ t ∈ ts, Shape (t.args.map (·.code)) ∧
    2 ≤ t.len ∧ t.len ≤ 5 := by
  intro t ht
  have hs := said_of_mem he ht
  suffices Shape (t.args.map (·.code)) by
    refine ⟨this, ?_⟩
    have hl : t.len = (t.args.map (·.code)).length := by simp [STuple.len]
    rw [hl]
    obtain ⟨x, _, h | ⟨y, _, z, _, h | h | h | h | h | ⟨u, _, h⟩⟩⟩ := this <;> simp [h]
  clear ht
  obtain ⟨t⟩ := t
  replace hs : Said pp h nodes t := hs
  have hN : c!"N" ∈ nounCodes := by decide
  have hNp : c!"N" ∈ propCodes := by decide
  cases hs with
  | clauseIntr _ _ _ _ _ a b => exact ⟨_, (IsNoun.code a).1, Or.inr ⟨_, (IsNoun.code b).1, _, hNp, by simp⟩⟩
  | clauseTrans _ _ _ _ _ a b c =>
    exact ⟨_, (IsNoun.code a).1, Or.inr ⟨_, (IsNoun.code b).1, _, hNp, by
      right; right; right; right; right
      exact ⟨_, (IsNoun.code c).1, rfl⟩⟩⟩
  | clauseProp _ _ _ a b c => exact ⟨_, (IsNoun.code a).1, Or.inr ⟨_, (IsNoun.code b).1, _, (IsProp.code c).1, by simp⟩⟩
  | intr _ _ _ _ _ _ _ a => exact ⟨_, (IsNoun.code a).1, Or.inl rfl⟩
  | trans _ _ _ _ _ _ _ a b => exact ⟨_, (IsNoun.code a).1, Or.inr ⟨_, (IsNoun.code b).1, _, hNp, by simp⟩⟩
  | recip _ _ _ _ _ _ _ a b => exact ⟨_, (IsNoun.code a).1, Or.inr ⟨_, (IsNoun.code b).1, _, hNp, by simp⟩⟩
  | passive _ _ _ _ _ _ a => exact ⟨_, (IsNoun.code a).1, Or.inr ⟨_, hN, c!"L", by decide, by simp⟩⟩
  | indirect _ _ _ _ a b => exact ⟨_, (IsNoun.code a).1, Or.inr ⟨_, hN, _, (IsProp.code b).1, by simp⟩⟩
  | copula _ _ _ _ a b => exact ⟨_, (IsNoun.code a).1, Or.inr ⟨_, hN, _, (IsProp.code b).1, by simp⟩⟩
  | copulaActive _ _ _ _ _ _ _ a b => exact ⟨_, (IsNoun.code a).1, Or.inr ⟨_, (IsNoun.code b).1, _, hNp, by simp⟩⟩
  | participle _ _ _ _ a b => exact ⟨_, (IsNoun.code a).1, Or.inr ⟨_, hN, _, (IsProp.code b).1, by simp⟩⟩
  | adjective _ _ _ a b => exact ⟨_, (IsNoun.code a).1, Or.inr ⟨_, hN, _, (IsAdj.code b).1, by simp⟩⟩
  | adjectiveActive _ _ _ _ _ _ a b => exact ⟨_, (IsNoun.code a).1, Or.inr ⟨_, (IsNoun.code b).1, _, hNp, by simp⟩⟩

/-- C58: only the second argument can be negative. -/
theorem C58_only_second_negative (he : extractTuples pp h nodes = .ok ts) :
    ∀ t ∈ ts, ∀ i a, t.args[i]? = some a → i ≠ 1 → a.isAff = true := by
  intro t ht i a hi h1
  have hs := said_of_mem he ht
  clear ht
  obtain ⟨t⟩ := t
  replace hs : Said pp h nodes t := hs
  rcases i with _ | _ | _ | _ | _ | i
  · cases hs <;> simp only [List.length_cons, List.getElem?_cons_zero, Option.some.injEq] at hi <;> subst hi <;>
      first | exact (IsNoun.code (by assumption)).2
  · exact absurd rfl h1
  · cases hs <;> simp at hi <;> subst hi <;>
      first | rfl | exact (IsNoun.code (by assumption)).2 | exact (IsProp.code (by assumption)).2 |
        exact (IsAdj.code (by assumption)).2
  · cases hs <;> simp at hi <;> subst hi <;> rfl
  · cases hs <;> simp at hi <;> subst hi <;>
      first | exact (IsNoun.code (by assumption)).2 | exact (IsProp.code (by assumption)).2
  · cases hs <;> simp at hi

/-- The polarity of a tuple is that of some nodes. -/
theorem polarity_of_nodes (he : extractTuples pp h nodes = .ok ts) : ∀ t ∈ ts, ∃ a, t.args[1]? = some a ∧
    ((∃ parts : List Ref, 2 ≤ parts.length ∧ a.isAff = affirmed (parts.map fun r => (h.node r).isAff)) ∨
      ∃ v o, v ∈ nodes ∧ o ∈ (h.node v).objs ∧ (h.node v).subjs ≠ [] ∧ a.isAff =
        affirmed [decide (∃ s ∈ (h.node v).subjs, (h.node s).isAff = true), (h.node v).isAff, (h.node o).isAff]) := by
  intro t ht
  have hs := said_of_mem he ht
  clear ht
  obtain ⟨t⟩ := t
  replace hs : Said pp h nodes t := hs
  cases hs with
  | @clauseIntr s v o s' => exact ⟨_, rfl, Or.inl ⟨[s, v, s', o], by simp, rfl⟩⟩
  | @clauseTrans s v o s' o' => exact ⟨_, rfl, Or.inl ⟨[s, v, s', o, o'], by simp, rfl⟩⟩
  | @clauseProp s v o s' p => exact ⟨_, rfl, Or.inl ⟨[s, v, s', o, p], by simp, rfl⟩⟩
  | @intr s v => exact ⟨_, rfl, Or.inl ⟨[s, v], by simp, rfl⟩⟩
  | @trans s v o => exact ⟨_, rfl, Or.inl ⟨[s, v, o], by simp, rfl⟩⟩
  | @recip s v o => exact ⟨_, rfl, Or.inl ⟨[s, v, o], by simp, rfl⟩⟩
  | @passive v o _ h1 _ _ _ h2 =>
    refine ⟨_, rfl, ?_⟩
    by_cases hn : (h.node v).subjs = []
    · exact Or.inl ⟨[v, o], by simp, by simp [subjPolarity, hn]⟩
    · exact Or.inr ⟨v, o, h1, h2, hn, by simp [subjPolarity, hn]⟩
  | @indirect n s v p =>
    refine ⟨_, rfl, Or.inl ⟨s.toList ++ [v, n, p], by simp, ?_⟩⟩
    cases s <;> rfl
  | @copula n c p => exact ⟨_, rfl, Or.inl ⟨[n, c, p], by simp, rfl⟩⟩
  | @copulaActive n c p w x => exact ⟨_, rfl, Or.inl ⟨[x, p, n], by simp, rfl⟩⟩
  | @participle n q p => exact ⟨_, rfl, Or.inl ⟨[n, q, p], by simp, rfl⟩⟩
  | @adjective n p => exact ⟨_, rfl, Or.inl ⟨[p, n], by simp, rfl⟩⟩
  | @adjectiveActive n p w x => exact ⟨_, rfl, Or.inl ⟨[x, p, n], by simp, rfl⟩⟩

/-- The node gives the word of the argument: by its canonical form, the active verb of a past participle, or as
participle behind "be". -/
def Gives (pp : Str → Str) (h : Heap) (r : Ref) (a : Argument) : Prop :=
  a.word = (h.node r).canon ∨ ActiveVerb (h.node r) a.word ∨ a.word = c!"be " ++ (h.node r).canon ∨
    a.word = c!"be " ++ Spec.pastParticiple pp h r

/-- C58: the second argument is affirmative iff an even number of the participants is negated. The participants are the
nodes that give the arguments, one each, and the one who names, when it is known; or, if "be" is given by no node, the
noun and its adjective; or the object of a verb, the verb and its subjects, which count as one participant, negated
when none of them is affirmative. -/
theorem C58_parity (he : extractTuples pp h nodes = .ok ts) : ∀ t ∈ ts, ∃ a, t.args[1]? = some a ∧
    ((∃ parts : List Ref, List.Forall₂ (Gives pp h) parts t.args ∧
        (a.isAff = affirmed (parts.map fun r => (h.node r).isAff) ∨
          ∃ s n v p, parts = [n, v, p] ∧ (some s, v, p) ∈ (h.node n).subjsVerbsIprops ∧
            a.isAff = affirmed ((s :: parts).map fun r => (h.node r).isAff))) ∨
      ∃ x y n p, t.args = [x, a, y] ∧ a.word = c!"be" ∧ x.word = (h.node n).canon ∧
        ((p ∈ (h.node n).adjs ∧ y.word = (h.node p).canon ∧ a.isAff = affirmed [(h.node n).isAff, (h.node p).isAff]) ∨
          (p ∈ nodes ∧ n ∈ (h.node p).objs ∧ y.word = Spec.pastParticiple pp h p ∧
            ((h.node p).subjs = [] → a.isAff = affirmed [(h.node p).isAff, (h.node n).isAff]) ∧
            ((h.node p).subjs ≠ [] → a.isAff = affirmed [decide (∃ s ∈ (h.node p).subjs, (h.node s).isAff = true),
              (h.node p).isAff, (h.node n).isAff])))) := by
  intro t ht
  have hs := said_of_mem he ht
  clear ht
  obtain ⟨t⟩ := t
  replace hs : Said pp h nodes t := hs
  have self : ∀ (r : Ref) (c : Str) (b : Bool), Gives pp h r ⟨(h.node r).canon, c, b⟩ := fun _ _ _ => Or.inl rfl
  have noun : ∀ {r : Ref} {a : Argument}, IsNoun h r a → Gives pp h r a := fun h => Or.inl h.1
  have prop : ∀ {r : Ref} {a : Argument}, IsProp h r a → Gives pp h r a := fun h => Or.inl h.1
  cases hs with
  | @clauseIntr s v o s' _ _ _ _ _ _ _ h1 h2 =>
    exact ⟨_, rfl, Or.inl ⟨[s, v, s', o], .cons (noun h1) (.cons (self _ _ _) (.cons (noun h2) (.cons (self _ _ _) .nil))),
      Or.inl rfl⟩⟩
  | @clauseTrans s v o s' o' _ _ _ _ _ _ _ _ h1 h2 h3 =>
    exact ⟨_, rfl, Or.inl ⟨[s, v, s', o, o'],
      .cons (noun h1) (.cons (self _ _ _) (.cons (noun h2) (.cons (self _ _ _) (.cons (noun h3) .nil)))), Or.inl rfl⟩⟩
  | @clauseProp s v o s' p _ _ _ _ _ _ h1 h2 h3 =>
    exact ⟨_, rfl, Or.inl ⟨[s, v, s', o, p],
      .cons (noun h1) (.cons (self _ _ _) (.cons (noun h2) (.cons (self _ _ _) (.cons (prop h3) .nil)))), Or.inl rfl⟩⟩
  | @intr s v _ _ _ _ _ _ _ _ h1 =>
    exact ⟨_, rfl, Or.inl ⟨[s, v], .cons (noun h1) (.cons (self _ _ _) .nil), Or.inl rfl⟩⟩
  | @trans s v o _ _ _ _ _ _ _ _ _ h1 h2 =>
    exact ⟨_, rfl, Or.inl ⟨[s, v, o], .cons (noun h1) (.cons (self _ _ _) (.cons (noun h2) .nil)), Or.inl rfl⟩⟩
  | @recip s v o _ _ _ _ _ _ _ _ _ h1 h2 =>
    exact ⟨_, rfl, Or.inl ⟨[s, v, o], .cons (noun h1) (.cons (self _ _ _) (.cons (noun h2) .nil)), Or.inl rfl⟩⟩
  | @passive v o _ h1 _ _ _ h2 _ h3 =>
    refine ⟨_, rfl, Or.inr ⟨_, _, o, v, rfl, rfl, h3.1, Or.inr ⟨h1, h2, rfl, ?_, ?_⟩⟩⟩
    · intro hn; simp [subjPolarity, hn]
    · intro hn; simp [subjPolarity, hn]
  | @indirect n s v p _ _ _ _ h1 _ h2 h3 =>
    refine ⟨_, rfl, Or.inl ⟨[n, v, p], .cons (noun h2) (.cons (Or.inr (Or.inr (Or.inr rfl))) (.cons (prop h3) .nil)), ?_⟩⟩
    have comm : ∀ (a b c : Bool) (l : List Bool), affirmed (l ++ [b, a, c]) = affirmed (l ++ [a, b, c]) := by
      intro a b c l
      unfold affirmed
      rw [(show (l ++ [b, a, c]).Perm (l ++ [a, b, c]) from (List.Perm.swap a b [c]).append_left l).count_eq]
    cases s with
    | none => exact Or.inl (comm _ _ _ [])
    | some s => exact Or.inr ⟨s, n, v, p, rfl, h1, comm _ _ _ [_]⟩
  | @copula n c p _ _ _ _ _ _ h1 h2 =>
    exact ⟨_, rfl, Or.inl ⟨[n, c, p], .cons (noun h1) (.cons (self _ _ _) (.cons (prop h2) .nil)), Or.inl rfl⟩⟩
  | @copulaActive n c p w x _ _ _ _ _ _ hw _ _ h1 h2 =>
    exact ⟨_, rfl, Or.inl ⟨[x, p, n], .cons (noun h1) (.cons (Or.inr (Or.inl hw)) (.cons (noun h2) .nil)), Or.inl rfl⟩⟩
  | @participle n q p _ _ _ _ _ _ h1 h2 =>
    exact ⟨_, rfl, Or.inl ⟨[n, q, p], .cons (noun h1) (.cons (Or.inr (Or.inr (Or.inl rfl))) (.cons (prop h2) .nil)),
      Or.inl rfl⟩⟩
  | @adjective n p _ _ _ _ h1 h2 h3 =>
    refine ⟨_, rfl, Or.inr ⟨_, _, n, p, rfl, rfl, h2.1, Or.inl ⟨h1, h3.1, ?_⟩⟩⟩
    unfold affirmed
    rw [(List.Perm.swap (h.node n).isAff (h.node p).isAff []).count_eq]
  | @adjectiveActive n p w x _ _ _ _ _ hw _ _ h1 h2 =>
    exact ⟨_, rfl, Or.inl ⟨[x, p, n], .cons (noun h1) (.cons (Or.inr (Or.inl hw)) (.cons (noun h2) .nil)), Or.inl rfl⟩⟩

/-- C58: a subject shared with the clause counts twice, so its negation is lost. -/
theorem C58_shared_subject_cancels (s v o : Bool) : affirmed [s, v, s, o] = affirmed [v, o] := by
  cases s <;> cases v <;> cases o <;> decide

/-- C59: an argument with code T, I or R in second place is a verb of the nodes that is neither a copula nor
existential, or the active verb of a past participle which has an agent. -/
theorem C59_verbs_are_plain (he : extractTuples pp h nodes = .ok ts) : ∀ t ∈ ts, ∀ a, t.args[1]? = some a →
    a.code ∈ [c!"T", c!"I", c!"R"] →
    (∃ v ∈ nodes, a.word = (h.node v).canon ∧ (h.node v).tag = .VERB ∧ Plain (h.node v)) ∨
    ∃ p x, ActiveVerb (h.node p) a.word ∧ x ∈ (h.node p).agents ∧ a.code = c!"T" := by
  intro t ht a ha hc
  have hs := said_of_mem he ht
  clear ht
  obtain ⟨t⟩ := t
  replace hs : Said pp h nodes t := hs
  cases hs with
  | clauseIntr hcl => cases ha; exact Or.inl ⟨_, hcl.1, rfl, hcl.2.1.1, hcl.2.1.2.2⟩
  | clauseTrans hcl => cases ha; exact Or.inl ⟨_, hcl.1, rfl, hcl.2.1.1, hcl.2.1.2.2⟩
  | clauseProp hcl => cases ha; exact Or.inl ⟨_, hcl.1, rfl, hcl.2.1.1, hcl.2.1.2.2⟩
  | intr hn _ hh => cases ha; exact Or.inl ⟨_, hn, rfl, hh.1, hh.2.2⟩
  | trans hn _ hh => cases ha; exact Or.inl ⟨_, hn, rfl, hh.1, hh.2.2⟩
  | recip hn _ hh => cases ha; exact Or.inl ⟨_, hn, rfl, hh.1, hh.2.2⟩
  | copulaActive _ _ _ _ h1 h2 => cases ha; exact Or.inr ⟨_, _, h1, h2, rfl⟩
  | adjectiveActive _ _ _ h1 h2 => cases ha; exact Or.inr ⟨_, _, h1, h2, rfl⟩
  | passive => cases ha; exact absurd hc (by simp)
  | indirect => cases ha; exact absurd hc (by simp)
  | copula => cases ha; exact absurd hc (by simp)
  | participle => cases ha; exact absurd hc (by simp)
  | adjective => cases ha; exact absurd hc (by simp)

/-- C59: an argument with code T or I in fourth place is the verb of a clause that is neither a copula nor
existential. -/
theorem C59_clause_verbs_are_plain (he : extractTuples pp h nodes = .ok ts) : ∀ t ∈ ts, ∀ a, t.args[3]? = some a →
    a.code ∈ [c!"T", c!"I"] → ∃ o, a.word = (h.node o).canon ∧ (h.node o).tag = .VERB ∧ Plain (h.node o) := by
  intro t ht a ha hc
  have hs := said_of_mem he ht
  clear ht
  obtain ⟨t⟩ := t
  replace hs : Said pp h nodes t := hs
  cases hs with
  | clauseIntr hcl _ hp => cases ha; exact ⟨_, rfl, hcl.2.2.2.2.2, hp⟩
  | clauseTrans hcl _ hp => cases ha; exact ⟨_, rfl, hcl.2.2.2.2.2, hp⟩
  | clauseProp hcl => cases ha; exact absurd hc (by simp)
  | intr => cases ha
  | trans => cases ha
  | recip => cases ha
  | copulaActive => cases ha
  | adjectiveActive => cases ha
  | passive => cases ha
  | indirect => cases ha
  | copula => cases ha
  | participle => cases ha
  | adjective => cases ha

/-- C59: "have", "get", "be" and "do" never appear as intransitive verbs. -/
theorem C59_intransitive_words (he : extractTuples pp h nodes = .ok ts) : ∀ t ∈ ts, ∀ a ∈ t.args, a.code = c!"I" →
    a.word ∉ [c!"have", c!"get", c!"be", c!"do"] := by
  intro t ht a ha hc
  have hs := said_of_mem he ht
  clear ht
  obtain ⟨t⟩ := t
  replace hs : Said pp h nodes t := hs
  have hno : ∀ {r a}, IsNoun h r a → a.code ≠ c!"I" := by
    intro r a h1 h2
    have := (IsNoun.code h1).1
    rw [h2] at this; exact absurd this (by decide)
  have hpo : ∀ {r a}, IsProp h r a → a.code ≠ c!"I" := by
    intro r a h1 h2
    have := (IsProp.code h1).1
    rw [h2] at this; exact absurd this (by decide)
  have hao : ∀ {r a}, IsAdj h r a → a.code ≠ c!"I" := by
    intro r a h1 h2
    have := (IsAdj.code h1).1
    rw [h2] at this; exact absurd this (by decide)
  cases hs with
  | clauseIntr _ _ _ _ _ b c =>
    simp only [List.mem_cons, List.not_mem_nil, or_false] at ha
    rcases ha with rfl | rfl | rfl | rfl
    · exact absurd hc (hno b)
    · exact absurd hc (by simp)
    · exact absurd hc (hno c)
    · assumption
  | clauseTrans _ _ _ _ _ b c d =>
    simp only [List.mem_cons, List.not_mem_nil, or_false] at ha
    rcases ha with rfl | rfl | rfl | rfl | rfl
    · exact absurd hc (hno b)
    · exact absurd hc (by simp)
    · exact absurd hc (hno c)
    · exact absurd hc (by simp)
    · exact absurd hc (hno d)
  | clauseProp _ _ _ b c d =>
    simp only [List.mem_cons, List.not_mem_nil, or_false] at ha
    rcases ha with rfl | rfl | rfl | rfl | rfl
    · exact absurd hc (hno b)
    · exact absurd hc (by simp)
    · exact absurd hc (hno c)
    · exact absurd hc (by simp)
    · exact absurd hc (hpo d)
  | intr _ _ _ _ _ _ _ b =>
    simp only [List.mem_cons, List.not_mem_nil, or_false] at ha
    rcases ha with rfl | rfl
    · exact absurd hc (hno b)
    · assumption
  | passive _ _ _ _ _ _ b =>
    simp only [List.mem_cons, List.not_mem_nil, or_false] at ha
    rcases ha with rfl | rfl | rfl
    · exact absurd hc (hno b)
    · exact absurd hc (by simp)
    · exact absurd hc (by simp)
  | adjective _ _ _ b c =>
    simp only [List.mem_cons, List.not_mem_nil, or_false] at ha
    rcases ha with rfl | rfl | rfl
    · exact absurd hc (hno b)
    · exact absurd hc (by simp)
    · exact absurd hc (hao c)
  | trans _ _ _ _ _ _ _ b c =>
    simp only [List.mem_cons, List.not_mem_nil, or_false] at ha
    rcases ha with rfl | rfl | rfl
    · exact absurd hc (hno b)
    · exact absurd hc (by simp)
    · exact absurd hc (hno c)
  | recip _ _ _ _ _ _ _ b c =>
    simp only [List.mem_cons, List.not_mem_nil, or_false] at ha
    rcases ha with rfl | rfl | rfl
    · exact absurd hc (hno b)
    · exact absurd hc (by simp)
    · exact absurd hc (hno c)
  | indirect _ _ _ _ b c =>
    simp only [List.mem_cons, List.not_mem_nil, or_false] at ha
    rcases ha with rfl | rfl | rfl
    · exact absurd hc (hno b)
    · exact absurd hc (by simp)
    · exact absurd hc (hpo c)
  | copula _ _ _ _ b c =>
    simp only [List.mem_cons, List.not_mem_nil, or_false] at ha
    rcases ha with rfl | rfl | rfl
    · exact absurd hc (hno b)
    · exact absurd hc (by simp)
    · exact absurd hc (hpo c)
  | participle _ _ _ _ b c =>
    simp only [List.mem_cons, List.not_mem_nil, or_false] at ha
    rcases ha with rfl | rfl | rfl
    · exact absurd hc (hno b)
    · exact absurd hc (by simp)
    · exact absurd hc (hpo c)
  | copulaActive _ _ _ _ _ _ _ b c =>
    simp only [List.mem_cons, List.not_mem_nil, or_false] at ha
    rcases ha with rfl | rfl | rfl
    · exact absurd hc (hno b)
    · exact absurd hc (by simp)
    · exact absurd hc (hno c)
  | adjectiveActive _ _ _ _ _ _ b c =>
    simp only [List.mem_cons, List.not_mem_nil, or_false] at ha
    rcases ha with rfl | rfl | rfl
    · exact absurd hc (hno b)
    · exact absurd hc (by simp)
    · exact absurd hc (hno c)

/-- C59: a past participle in third place comes from a verb other than "have" and "get" with an object, or is the word
of a node with an active verb. -/
theorem C59_passive_words (he : extractTuples pp h nodes = .ok ts) : ∀ t ∈ ts, ∀ a, t.args[2]? = some a →
    a.code = c!"L" → (∃ v ∈ nodes, (h.node v).canon ∉ [c!"have", c!"get"] ∧ (h.node v).objs ≠ [] ∧
      (h.node v).tag = .VERB ∧ Plain (h.node v) ∧ a.word = pastParticiple pp h v) ∨
    ∃ p w, ActiveVerb (h.node p) w ∧ a.word = (h.node p).canon := by
  intro t ht a ha hc
  have hs := said_of_mem he ht
  clear ht
  obtain ⟨t⟩ := t
  replace hs : Said pp h nodes t := hs
  have hno : ∀ {r a}, IsNoun h r a → a.code ≠ c!"L" := by
    intro r a h1 h2
    have := (IsNoun.code h1).1
    rw [h2] at this; exact absurd this (by decide)
  have hadj : ∀ {r : Ref} {c : Str}, AdjCode (h.node r) c → c = c!"L" → ∃ w, ActiveVerb (h.node r) w := by
    intro r c h1 h2
    cases h1 with
    | pp hw => exact ⟨_, hw⟩
    | adj => cases h2
  have hprop : ∀ {r a}, IsProp h r a → a.code = c!"L" → ∃ p w, ActiveVerb (h.node p) w ∧ a.word = (h.node p).canon := by
    rintro r a ⟨h1, ⟨_, h3⟩ | ⟨_, h3⟩, _⟩ h2
    · obtain ⟨w, hw⟩ := hadj h3 h2
      exact ⟨r, w, hw, h1⟩
    · rw [h2] at h3
      generalize (h.node r).tag = t at h3
      cases h3
  cases hs with
  | clauseIntr _ _ _ _ _ _ b => cases ha; exact absurd hc (hno b)
  | clauseTrans _ _ _ _ _ _ b => cases ha; exact absurd hc (hno b)
  | clauseProp _ _ _ _ b => cases ha; exact absurd hc (hno b)
  | intr => cases ha
  | passive h1 h2 h3 h4 h5 => cases ha; exact Or.inl ⟨_, h1, h4, List.ne_nil_of_mem h5, h2, h3, rfl⟩
  | adjective _ _ _ _ b =>
    cases ha
    obtain ⟨w, hw⟩ := hadj b.2.1 hc
    exact Or.inr ⟨_, w, hw, b.1⟩
  | trans _ _ _ _ _ _ _ _ b => cases ha; exact absurd hc (hno b)
  | recip _ _ _ _ _ _ _ _ b => cases ha; exact absurd hc (hno b)
  | copulaActive _ _ _ _ _ _ _ _ b => cases ha; exact absurd hc (hno b)
  | adjectiveActive _ _ _ _ _ _ _ b => cases ha; exact absurd hc (hno b)
  | indirect _ _ _ _ _ b => cases ha; exact Or.inr (hprop b hc)
  | copula _ _ _ _ _ b => cases ha; exact Or.inr (hprop b hc)
  | participle _ _ _ _ _ b => cases ha; exact Or.inr (hprop b hc)

end

/-- C60: `Argument` raises iff the code is not one of the eleven. -/
theorem C60_argument_raises (w c : Str) (b : Bool) : Argument.new w c b = .error .argumentValue ↔
    c ∉ [c!"A", c!"C", c!"L", c!"I", c!"N", c!"O", c!"P", c!"R", c!"S", c!"T", c!"U"] := by
  unfold Argument.new
  change _ ↔ c ∉ argCodes
  constructor
  · intro he hm
    rw [if_neg (not_not.mpr hm)] at he
    cases he
  · intro hm
    rw [if_pos hm]

/-- C60: else it keeps what it is given. -/
theorem C60_argument_keeps (w c : Str) (b : Bool) (a : Argument) (h : Argument.new w c b = .ok a) :
    a.word = w ∧ a.code = c ∧ a.isAff = b := by
  unfold Argument.new at h
  split at h
  · cases h
  · cases h; exact ⟨rfl, rfl, rfl⟩

/-- C60: the part of speech of each code. -/
theorem C60_argument_tag (w c : Str) (b : Bool) (a : Argument) (h : Argument.new w c b = .ok a) :
    (a.tag = c!"ADJ" ∧ (c = c!"A" ∨ c = c!"L")) ∨ (a.tag = c!"VERB" ∧ (c = c!"I" ∨ c = c!"R" ∨ c = c!"T")) ∨
    (a.tag = c!"NOUN" ∧ c ∈ [c!"C", c!"N", c!"O", c!"P", c!"S", c!"U"]) := by
  have hc : c ∈ argCodes := by
    by_contra hcon
    rw [Argument.new, if_pos hcon] at h
    cases h
  obtain ⟨_, h2, _⟩ := C60_argument_keeps w c b a h
  unfold Argument.tag
  rw [h2]
  simp only [argCodes, List.mem_cons, List.not_mem_nil, or_false] at hc
  rcases hc with rfl | rfl | rfl | rfl | rfl | rfl | rfl | rfl | rfl | rfl | rfl <;> decide

/-- C60: `flatten` prepends the negation iff the argument is negative and decorators are on. -/
theorem C60_argument_flatten (a : Argument) (deco : Bool) :
    a.flatten deco = if deco = true ∧ a.isAff = false then c!"NOT " ++ a.word else a.word := by
  unfold Argument.flatten
  cases deco <;> cases h : a.isAff <;> simp [join]

/-- C60: the code of a tuple is the concatenation of those of its arguments. -/
theorem C60_tuple_code (t : STuple) : t.code = (t.args.map (·.code)).flatten := by
  unfold STuple.code
  have : ∀ l : List Str, join [] l = l.flatten := by
    intro l
    induction l with
    | nil => rfl
    | cons x l ih => cases l with
      | nil => simp [join]
      | cons y l => simp only [join, ih, List.append_nil, List.flatten_cons]
  exact this _

/-- Every argument was made by `Argument`. -/
def ValidArgs (t : STuple) : Prop := ∀ a ∈ t.args, a.code ∈ argCodes

theorem code_single {c : Str} (h : c ∈ argCodes) : ∃ x, c = [x] ∧ x ≠ '(' := by
  simp only [argCodes, List.mem_cons, List.not_mem_nil, or_false] at h
  rcases h with rfl | rfl | rfl | rfl | rfl | rfl | rfl | rfl | rfl | rfl | rfl <;> exact ⟨_, rfl, by decide⟩

/-- C60: so it is as long as the tuple. -/
theorem C60_tuple_code_length (t : STuple) (ht : ValidArgs t) : t.code.length = t.len := by
  rw [C60_tuple_code]
  unfold STuple.len
  unfold ValidArgs at ht
  generalize t.args = l at ht
  induction l with
  | nil => rfl
  | cons a l ih =>
    obtain ⟨x, h1, _⟩ := code_single (ht a (by simp))
    have := ih fun b hb => ht b (List.mem_cons_of_mem _ hb)
    simp only [List.map_cons, List.flatten_cons, List.length_append, this, h1, List.length_cons, List.length_nil]
    omega

/-- C60: `arg` gives the argument at a position counted from the start, or from the end if negative, and raises
`IndexError` beyond both ends. -/
theorem C60_tuple_arg (t : STuple) (n : Nat) :
    (∀ a, t.args[n]? = some a → t.arg n = .ok a ∧ t.arg ((n : Int) - t.len) = .ok a) ∧
    (t.len ≤ n → t.arg n = .error .index ∧ t.arg (-(n : Int) - 1) = .error .index) := by
  unfold STuple.arg STuple.len
  constructor
  · intro a ha
    obtain ⟨hn, rfl⟩ := List.getElem?_eq_some_iff.mp ha
    refine ⟨by rw [index_nat]; simp [hn], ?_⟩
    have := index_neg t.args (t.args.length - n) (by omega)
    rw [show (-((t.args.length - n : Nat) : Int)) = (n : Int) - t.args.length by omega, dif_pos (by omega)] at this
    rw [this]
    congr 2
    omega
  · intro hn
    refine ⟨by rw [index_nat]; simp [hn], ?_⟩
    have := index_neg t.args (n + 1) (by omega)
    rw [show (-((n + 1 : Nat) : Int)) = -(n : Int) - 1 by omega, dif_neg (by omega)] at this
    exact this

example : (STuple.mk [⟨c!"fox", c!"N", true⟩, ⟨c!"run", c!"I", false⟩]).arg 1 = .ok ⟨c!"run", c!"I", false⟩ ∧
    (STuple.mk [⟨c!"fox", c!"N", true⟩, ⟨c!"run", c!"I", false⟩]).arg (-2) = .ok ⟨c!"fox", c!"N", true⟩ ∧
    (STuple.mk [⟨c!"fox", c!"N", true⟩, ⟨c!"run", c!"I", false⟩]).arg 2 = .error .index := by decide +kernel

/-- C60: `has_any_arg_with_code` tells whether the code occurs in the code of the tuple. -/
theorem C60_has_any_arg_with_code (t : STuple) (ht : ValidArgs t) (x : Char) :
    t.hasAnyArgWithCode [x] = true ↔ x ∈ t.code := by
  rw [C60_tuple_code]
  simp only [STuple.hasAnyArgWithCode, List.any_eq_true, decide_eq_true_eq, List.mem_flatten, List.mem_map]
  constructor
  · rintro ⟨a, ha, hc⟩; exact ⟨_, ⟨a, ha, rfl⟩, by rw [hc]; simp⟩
  · rintro ⟨_, ⟨a, ha, rfl⟩, hx⟩
    obtain ⟨y, h1, _⟩ := code_single (ht a ha)
    rw [h1] at hx
    refine ⟨a, ha, ?_⟩
    rw [h1, List.mem_singleton.mp hx]

theorem split_first {x : Char} {a b c d : Str} (ha : x ∉ a) (hc : x ∉ c) (h : a ++ x :: b = c ++ x :: d) :
    a = c ∧ b = d := by
  induction a generalizing c with
  | nil => cases c with
    | nil => simpa using h
    | cons y c => simp only [List.nil_append, List.cons_append, List.cons.injEq] at h; exact absurd (by simp [h.1]) hc
  | cons z a ih => cases c with
    | nil => simp only [List.nil_append, List.cons_append, List.cons.injEq] at h; exact absurd (by simp [h.1]) ha
    | cons y c =>
      simp only [List.cons_append, List.cons.injEq] at h
      have := ih (fun hh => ha (List.mem_cons_of_mem _ hh)) (fun hh => hc (List.mem_cons_of_mem _ hh)) h.2
      exact ⟨by rw [h.1, this.1], this.2⟩

theorem join_inj {l l' : List Str} (hlen : l.length = l'.length) (h : ∀ x ∈ l, ',' ∉ x) (h' : ∀ x ∈ l', ',' ∉ x)
    (e : join c!", " l = join c!", " l') : l = l' := by
  induction l generalizing l' with
  | nil => exact (List.length_eq_zero_iff.mp hlen.symm).symm
  | cons x l ih =>
    match l', hlen with
    | x' :: l', hlen =>
      match l, l', hlen with
      | [], [], _ => simp only [join] at e; rw [e]
      | y :: l, y' :: l', hlen =>
        simp only [join, List.append_assoc, List.cons_append, List.nil_append] at e
        obtain ⟨e1, e2⟩ := split_first (h x (by simp)) (h' x' (by simp)) e
        simp only [List.cons.injEq, true_and] at e2
        rw [e1, ih (by simpa using hlen) (fun z hz => h z (List.mem_cons_of_mem _ hz))
          (fun z hz => h' z (List.mem_cons_of_mem _ hz)) e2]

/-- C60: the string of a tuple determines it, when words contain no comma and do not begin with the negation mark. -/
theorem C60_flatten_injective (t t' : STuple) (ht : ValidArgs t) (ht' : ValidArgs t')
    (hw : ∀ a ∈ t.args ++ t'.args, ',' ∉ a.word ∧ ¬ c!"NOT " <+: a.word) (e : t.flatten true = t'.flatten true) : t = t' := by
  have hcode : ∀ t : STuple, ValidArgs t → '(' ∉ t.code := by
    intro t ht hm
    rw [C60_tuple_code] at hm
    simp only [List.mem_flatten, List.mem_map] at hm
    obtain ⟨_, ⟨a, ha, rfl⟩, hx⟩ := hm
    obtain ⟨x, h1, h2⟩ := code_single (ht a ha)
    rw [h1] at hx
    exact h2 (List.mem_singleton.mp hx).symm
  unfold STuple.flatten at e
  simp only [List.append_assoc, List.cons_append, List.nil_append] at e
  obtain ⟨e1, e2⟩ := split_first (hcode t ht) (hcode t' ht') e
  have hlen : t.args.length = t'.args.length := by
    have := congrArg List.length e1
    rwa [C60_tuple_code_length t ht, C60_tuple_code_length t' ht'] at this
  have e3 := List.append_cancel_right e2
  have hcomma : ∀ a : Argument, ',' ∉ a.word → ',' ∉ a.flatten true := by
    intro a ha
    rw [C60_argument_flatten]
    split
    · simp [ha]
    · exact ha
  have e4 := join_inj (by simpa using hlen)
    (by
      intro x hx
      obtain ⟨a, ha, rfl⟩ := List.mem_map.mp hx
      exact hcomma a (hw a (List.mem_append_left _ ha)).1)
    (by
      intro x hx
      obtain ⟨a, ha, rfl⟩ := List.mem_map.mp hx
      exact hcomma a (hw a (List.mem_append_right _ ha)).1) e3
  have key : ∀ l l' : List Argument, (∀ a ∈ l, a.code ∈ argCodes) → (∀ a ∈ l', a.code ∈ argCodes) →
      (∀ a ∈ l ++ l', ¬ c!"NOT " <+: a.word) → (l.map (·.code)).flatten = (l'.map (·.code)).flatten →
      l.map (·.flatten true) = l'.map (·.flatten true) → l = l' := by
    intro l
    induction l with
    | nil => intro l' _ _ _ _ h; simpa using h.symm
    | cons a l ih =>
      intro l' h1 h2 h3 h4 h5
      cases l' with
      | nil => simp at h5
      | cons b l' =>
        obtain ⟨x, hx, _⟩ := code_single (h1 a (by simp))
        obtain ⟨y, hy, _⟩ := code_single (h2 b (by simp))
        simp only [List.map_cons, List.flatten_cons, hx, hy, List.cons_append, List.nil_append, List.cons.injEq] at h4 h5
        have hr := ih l' (fun c hc => h1 c (List.mem_cons_of_mem _ hc)) (fun c hc => h2 c (List.mem_cons_of_mem _ hc))
          (fun c hc => h3 c (by simp only [List.mem_append, List.mem_cons] at hc ⊢; tauto)) h4.2 h5.2
        have ha := h3 a (by simp)
        have hb := h3 b (by simp)
        have hab : a = b := by
          have h6 := h5.1
          rw [C60_argument_flatten, C60_argument_flatten] at h6
          obtain ⟨aw, ac, aa⟩ := a
          obtain ⟨bw, bc, ba⟩ := b
          simp only at hx hy ha hb h6
          cases aa <;> cases ba <;>
            simp only [reduceCtorEq, and_false, and_true, if_false, if_true, List.append_cancel_left_eq] at h6
          · rw [h6, hx, hy, h4.1]
          · exact absurd ⟨_, h6⟩ hb
          · exact absurd ⟨_, h6.symm⟩ ha
          · rw [h6, hx, hy, h4.1]
        rw [hab, hr]
  have := key t.args t'.args ht ht' (fun a ha => (hw a ha).2) (by rw [← C60_tuple_code, ← C60_tuple_code, e1]) e4
  cases t; cases t'; simpa using this

/-- C61: the tuples of a document are those of its sentences, in order. -/
theorem C61_document_concat (d : Document) : d.stuples = (d.sentences.map (·.stuples)).flatten := by
  unfold Document.stuples
  have h1 : ∀ (l : List STuple) acc, l.foldl (fun acc t => acc ++ [t]) acc = acc ++ l := by
    intro l
    induction l with
    | nil => simp
    | cons x l ih => intro acc; simp [ih]
  have h2 : ∀ (l : List Sentence) acc, l.foldl (fun acc s => s.stuples.foldl (fun acc t => acc ++ [t]) acc) acc =
      acc ++ (l.map (·.stuples)).flatten := by
    intro l
    induction l with
    | nil => simp
    | cons x l ih => intro acc; simp [ih, h1]
  simpa using h2 d.sentences []

/-! ### Cases -/

/-- "nobody wants to sing": 0 nobody (negated), 1 want, 2 sing. -/
def singHeap : Heap :=
  let node (w : Str) (tag : Tag) : Node := { idx := 0, original := w, tag := tag, standard := w, lem := w, canon := w }
  { next := 3, node := fun r => match r with
    | 0 => { node c!"body" .NOUN with isAff := false }
    | 1 => { node c!"want" .VERB with subjs := [0], objs := [2] }
    | 2 => { node c!"sing" .VERB with isInfTo := true }
    | _ => default }

/-- One tuple is said; it is affirmative though its subject is negated, as the clause shares the subject. -/
example : extractTuples (· ++ c!"ed") singHeap [0, 1, 2] = .ok [⟨[⟨c!"body", c!"N", true⟩, ⟨c!"want", c!"T", true⟩,
    ⟨c!"body", c!"N", true⟩, ⟨c!"sing", c!"I", true⟩]⟩] := by decide +kernel

/-- "people do not know songs": 0 people, 1 know (negated), 2 songs. -/
def knowHeap : Heap :=
  let node (w : Str) (tag : Tag) : Node := { idx := 0, original := w, tag := tag, standard := w, lem := w, canon := w }
  { next := 3, node := fun r => match r with
    | 0 => node c!"people" .NOUN
    | 1 => { node c!"know" .VERB with subjs := [0], objs := [2], isAff := false }
    | 2 => { node c!"song" .NOUN with adjs := [3] }
    | 3 => node c!"old" .ADJ
    | _ => default }

example : extractTuples (· ++ c!"n") knowHeap [0, 1, 2, 3] = .ok [
    ⟨[⟨c!"people", c!"N", true⟩, ⟨c!"know", c!"T", false⟩, ⟨c!"song", c!"N", true⟩]⟩,
    ⟨[⟨c!"song", c!"N", true⟩, ⟨c!"be", c!"C", true⟩, ⟨c!"old", c!"A", true⟩]⟩,
    ⟨[⟨c!"song", c!"N", true⟩, ⟨c!"be", c!"C", false⟩, ⟨c!"known", c!"L", true⟩]⟩] := by decide +kernel

example : (STuple.mk [⟨c!"people", c!"N", true⟩, ⟨c!"know", c!"T", false⟩, ⟨c!"song", c!"N", true⟩]).flatten true =
    c!"NTN(people, NOT know, song)" := by decide +kernel

example : ValidArgs (STuple.mk [⟨c!"people", c!"N", true⟩, ⟨c!"know", c!"T", false⟩, ⟨c!"song", c!"N", true⟩]) := by
  unfold ValidArgs; decide

end Props
