import Verif.Lemmas.Chunking
import Verif.Spec.Provenance

/-! The words of nodes come from the sentence, at every step. -/

namespace Model
open Py Spec

section
variable {c : Logic} {tokens : List Str}

theorem derived_base {l : Str} (h : BaseForm c tokens l) : Derived c tokens l := by
  have := Derived.words (c := c) (tokens := tokens) (ls := [l]) (ps := []) (by simp) (by simpa using h) (by simp [Particles])
  simpa [List.intercalate] using this

theorem derived_particles {l : Str} {ps : List Str} (h : BaseForm c tokens l) (hp : Particles c tokens ps) :
    Derived c tokens (List.intercalate c!" " (l :: ps)) :=
  Derived.words (ls := [l]) (by simp) (by simpa using h) hp

/-- A node of the tree before normalization. -/
structure Raw (c : Logic) (tokens : List Str) (n : Node) : Prop where
  text : SentText tokens n.original
  standard : n.standard = c.lower n.original
  lem : n.lem = n.standard
  canon : n.canon = n.standard
  particles : Particles c tokens n.particles
  chunk : n.chunk = none
  active : n.activeVerb = none

/-- A node after normalization: its lemma is a base form, and it is one for all tags. -/
structure Based (c : Logic) (tokens : List Str) (n : Node) : Prop where
  lem : BaseForm c tokens n.lem
  canon : Derived c tokens n.canon
  verb : ∀ l s, c.lemmatizer.call n.standard .VERB = .ok (l, s) → BaseForm c tokens l
  particles : Particles c tokens n.particles
  chunk : n.chunk = none
  active : n.activeVerb = none

/-- A node after canonicalization. -/
structure Sourced (c : Logic) (tokens : List Str) (n : Node) : Prop where
  lem : BaseForm c tokens n.lem
  canon : Derived c tokens n.canon
  particles : Particles c tokens n.particles
  active : ∀ w, n.activeVerb = some w → Derived c tokens w

theorem Raw.base {n : Node} (h : Raw c tokens n) {s : Str} (hs : standardize c.lemmatizer.lm n.standard = .ok s) (tag : Tag)
    {l : Str} {x : Option Suffix} (hl : c.lemmatizer.call s tag = .ok (l, x)) : BaseForm c tokens l :=
  ⟨_, h.text, .inr ⟨s, tag, x, h.standard ▸ hs, hl⟩⟩

theorem Raw.canonBase {n : Node} (h : Raw c tokens n) : BaseForm c tokens n.lem :=
  ⟨_, h.text, .inl (h.lem.trans h.standard)⟩

theorem Raw.sourced {n : Node} (h : Raw c tokens n) : Sourced c tokens n where
  lem := h.canonBase
  canon := by rw [h.canon, ← h.lem]; exact derived_base h.canonBase
  particles := h.particles
  active := by intro w hw; rw [h.active] at hw; cases hw

/-- Normalization. -/
theorem Raw.normalized {n : Node} (h : Raw c tokens n) {s l : Str} {x : Option Suffix}
    (hs : standardize c.lemmatizer.lm n.standard = .ok s) (hl : c.lemmatizer.call s n.tag = .ok (l, x)) :
    Based c tokens { n with standard := s, lem := l, suffix := x } where
  lem := h.base hs _ hl
  canon := h.sourced.canon
  verb := fun _ _ hv => h.base hs _ hv
  particles := h.particles
  chunk := h.chunk
  active := h.active

/-- Canonicalization, with the chunk of a compound. -/
theorem Based.canonicalized {n n' : Node} (h : Based c tokens n) (ch : Option Str)
    (hch : ∀ w, ch = some w → Derived c tokens w)
    (e : canonicalize c.lemmatizer.call { n with chunk := ch } = .ok n') : Sourced c tokens n' := by
  have f := Props.C40_frame _ _ e
  refine ⟨?_, ?_, ?_, ?_⟩
  · rw [f.1]; exact h.lem
  · rw [Props.C40_canon _ _ e]
    simp only
    unfold Props.canonOf
    split
    · cases hs : Props.subjectOf n.lem with
      | none => exact derived_base h.lem
      | some w => exact .pronoun h.lem hs
    · split
      · exact hch _ rfl
      · exact derived_base h.lem
    · exact derived_particles h.lem h.particles
    · exact derived_particles h.lem h.particles
    · exact derived_base h.lem
  · rw [f.1]; exact h.particles
  · intro w hw
    by_cases ht : n.tag = .ADJ
    · obtain ⟨l, s, k1, -, k3⟩ := Props.C40_adjective _ _ (by exact ht) e
      rw [k3] at hw
      split at hw
      · cases hw
        exact derived_particles (h.verb _ _ k1) h.particles
      · simp only [h.active] at hw
        cases hw
    · rw [(f.2 ht).2] at hw
      simp only [h.active] at hw
      cases hw

/-- What is said by nodes whose words come from the sentence. -/
theorem said_derived {h : Heap} {nodes : List Ref} (hn : ∀ r ∈ nodes, Sourced c tokens (h.node r))
    (hx : ∀ r x : Ref, (x ∈ (h.node r).subjs ∨ x ∈ (h.node r).objs ∨ x ∈ (h.node r).iobjs ∨ x ∈ (h.node r).exist ∨
      x ∈ (h.node r).props ∨ x ∈ (h.node r).iprops ∨ x ∈ (h.node r).adjs ∨ x ∈ (h.node r).agents ∨
      (∃ y, (x, y) ∈ (h.node r).copulasProps ∨ (y, x) ∈ (h.node r).copulasProps) ∨
      (∃ y, (x, y) ∈ (h.node r).ppsProps ∨ (y, x) ∈ (h.node r).ppsProps) ∨
      ∃ y z, (some x, y, z) ∈ (h.node r).subjsVerbsIprops ∨ (∃ s, (s, x, z) ∈ (h.node r).subjsVerbsIprops) ∨
        ∃ s, (s, y, x) ∈ (h.node r).subjsVerbsIprops) → Sourced c tokens (h.node x)) {l : List Argument}
    (hl : Said c.pp h nodes l) : ∀ a ∈ l, DerivedArg c tokens a := by
  have noun : ∀ {r a}, IsNoun h r a → Sourced c tokens (h.node r) → DerivedArg c tokens a := fun h1 h2 =>
    .inl (h1.1 ▸ h2.canon)
  have prop : ∀ {r a}, IsProp h r a → Sourced c tokens (h.node r) → DerivedArg c tokens a := fun h1 h2 =>
    .inl (h1.1 ▸ h2.canon)
  have adj : ∀ {r a}, IsAdj h r a → Sourced c tokens (h.node r) → DerivedArg c tokens a := fun h1 h2 =>
    .inl (h1.1 ▸ h2.canon)
  have pp : ∀ {v}, Sourced c tokens (h.node v) → Derived c tokens (Spec.pastParticiple c.pp h v) := by
    intro v hv
    unfold Spec.pastParticiple
    rw [join_eq_intercalate]
    exact .participle hv.lem (c.pp_eq _) hv.particles
  have act : ∀ {p w}, ActiveVerb (h.node p) w → Sourced c tokens (h.node p) → Derived c tokens w := fun h1 h2 =>
    h2.active _ h1.1
  have cl : ∀ {s v o}, Clause h nodes s v o → Sourced c tokens (h.node s) ∧ Sourced c tokens (h.node v) ∧
      Sourced c tokens (h.node o) := fun H =>
    ⟨hx _ _ (.inl H.2.2.1), hn _ H.1, hx _ _ (.inr (.inl H.2.2.2.2.1))⟩
  have cs : ∀ {s v o s'}, Clause h nodes s v o → ClauseSubj h s o s' → Sourced c tokens (h.node s') := by
    rintro s v o s' H (⟨-, rfl⟩ | ⟨-, h1, -⟩)
    · exact (cl H).1
    · exact hx _ _ (.inl h1)
  have copL : ∀ {n x y : Ref}, (x, y) ∈ (h.node n).copulasProps → Sourced c tokens (h.node x) := fun {n x y} h1 =>
    hx n x (.inr <| .inr <| .inr <| .inr <| .inr <| .inr <| .inr <| .inr <| .inl ⟨y, .inl h1⟩)
  have copR : ∀ {n x y : Ref}, (x, y) ∈ (h.node n).copulasProps → Sourced c tokens (h.node y) := fun {n x y} h1 =>
    hx n y (.inr <| .inr <| .inr <| .inr <| .inr <| .inr <| .inr <| .inr <| .inl ⟨x, .inr h1⟩)
  have ppL : ∀ {n x y : Ref}, (x, y) ∈ (h.node n).ppsProps → Sourced c tokens (h.node x) := fun {n x y} h1 =>
    hx n x (.inr <| .inr <| .inr <| .inr <| .inr <| .inr <| .inr <| .inr <| .inr <| .inl ⟨y, .inl h1⟩)
  have ppR : ∀ {n x y : Ref}, (x, y) ∈ (h.node n).ppsProps → Sourced c tokens (h.node y) := fun {n x y} h1 =>
    hx n y (.inr <| .inr <| .inr <| .inr <| .inr <| .inr <| .inr <| .inr <| .inr <| .inl ⟨x, .inr h1⟩)
  have svL : ∀ {n s x y}, (s, x, y) ∈ (h.node n).subjsVerbsIprops → Sourced c tokens (h.node x) := fun {n s x y} h1 =>
    hx n x (.inr <| .inr <| .inr <| .inr <| .inr <| .inr <| .inr <| .inr <| .inr <| .inr ⟨x, y, .inr (.inl ⟨s, h1⟩)⟩)
  have svR : ∀ {n s x y}, (s, x, y) ∈ (h.node n).subjsVerbsIprops → Sourced c tokens (h.node y) := fun {n s x y} h1 =>
    hx n y (.inr <| .inr <| .inr <| .inr <| .inr <| .inr <| .inr <| .inr <| .inr <| .inr ⟨x, y, .inr (.inr ⟨s, h1⟩)⟩)
  have adj' : ∀ {n x}, x ∈ (h.node n).adjs → Sourced c tokens (h.node x) := fun {n x} h1 =>
    hx n x (.inr <| .inr <| .inr <| .inr <| .inr <| .inr <| .inl h1)
  have ag : ∀ {n x}, x ∈ (h.node n).agents → Sourced c tokens (h.node x) := fun {n x} h1 =>
    hx n x (.inr <| .inr <| .inr <| .inr <| .inr <| .inr <| .inr <| .inl h1)
  cases hl with
  | clauseIntr H S _ _ _ a1 a2 =>
    simp only [List.forall_mem_cons, List.not_mem_nil, false_implies, implies_true, and_true]
    exact ⟨noun a1 (cl H).1, .inl (cl H).2.1.canon, noun a2 (cs H S), .inl (cl H).2.2.canon⟩
  | clauseTrans H S _ ho _ a1 a2 a3 =>
    simp only [List.forall_mem_cons, List.not_mem_nil, false_implies, implies_true, and_true]
    exact ⟨noun a1 (cl H).1, .inl (cl H).2.1.canon, noun a2 (cs H S), .inl (cl H).2.2.canon,
      noun a3 (hx _ _ (.inr (.inl ho)))⟩
  | clauseProp H S hp a1 a2 a3 =>
    simp only [List.forall_mem_cons, List.not_mem_nil, false_implies, implies_true, and_true]
    exact ⟨noun a1 (cl H).1, .inl (cl H).2.1.canon, noun a2 (cs H S), .inl (cl H).2.2.canon,
      prop a3 (hx _ _ (.inr <| .inr <| .inr <| .inr <| .inl hp))⟩
  | intr hv _ _ _ _ hs _ a1 =>
    simp only [List.forall_mem_cons, List.not_mem_nil, false_implies, implies_true, and_true]
    exact ⟨noun a1 (hx _ _ (.inl hs)), .inl (hn _ hv).canon⟩
  | trans hv _ _ hs _ ho _ a1 a2 =>
    simp only [List.forall_mem_cons, List.not_mem_nil, false_implies, implies_true, and_true]
    exact ⟨noun a1 (hx _ _ (.inl hs)), .inl (hn _ hv).canon, noun a2 (hx _ _ (.inr (.inl ho)))⟩
  | recip hv _ _ hs _ ho _ a1 a2 =>
    simp only [List.forall_mem_cons, List.not_mem_nil, false_implies, implies_true, and_true]
    exact ⟨noun a1 (hx _ _ (.inl hs)), .inl (hn _ hv).canon, noun a2 (hx _ _ (.inr (.inr (.inl ho))))⟩
  | passive hv _ _ _ ho _ a1 =>
    simp only [List.forall_mem_cons, List.not_mem_nil, false_implies, implies_true, and_true]
    exact ⟨noun a1 (hx _ _ (.inr (.inl ho))), .inr ⟨rfl, .inl rfl⟩, .inl (pp (hn _ hv))⟩
  | indirect hnn _ hs _ a1 a2 =>
    simp only [List.forall_mem_cons, List.not_mem_nil, false_implies, implies_true, and_true]
    exact ⟨noun a1 (hn _ hnn), .inr ⟨rfl, .inr ⟨_, pp (svL hs), rfl⟩⟩, prop a2 (svR hs)⟩
  | copula hnn _ hs _ a1 a2 =>
    simp only [List.forall_mem_cons, List.not_mem_nil, false_implies, implies_true, and_true]
    exact ⟨noun a1 (hn _ hnn), .inl (copL hs).canon, prop a2 (copR hs)⟩
  | copulaActive hnn _ hs _ hw hag _ a1 a2 =>
    simp only [List.forall_mem_cons, List.not_mem_nil, false_implies, implies_true, and_true]
    exact ⟨noun a1 (ag hag), .inl (act hw (copR hs)), noun a2 (hn _ hnn)⟩
  | participle hnn _ hs _ a1 a2 =>
    simp only [List.forall_mem_cons, List.not_mem_nil, false_implies, implies_true, and_true]
    exact ⟨noun a1 (hn _ hnn), .inr ⟨rfl, .inr ⟨_, (ppL hs).canon, rfl⟩⟩, prop a2 (ppR hs)⟩
  | adjective hnn _ hp a1 a2 =>
    simp only [List.forall_mem_cons, List.not_mem_nil, false_implies, implies_true, and_true]
    exact ⟨noun a1 (hn _ hnn), .inr ⟨rfl, .inl rfl⟩, adj a2 (adj' hp)⟩
  | adjectiveActive hnn _ hp hw hag _ a1 a2 =>
    simp only [List.forall_mem_cons, List.not_mem_nil, false_implies, implies_true, and_true]
    exact ⟨noun a1 (ag hag), .inl (act hw (adj' hp)), noun a2 (hn _ hnn)⟩

/-- All steps after nodification. -/
theorem steps_sourced {chunk : Bool} {h₀ h₁ h₂ h₃ h₄ h₅ : Heap} {nodes : List Ref} {t : Tree Dep Ref} {P : Ref → Prop}
    (hP : ∀ r ∈ nodes, P r) (raw : ∀ r, P r → Raw c tokens (h₀.node r)) (s1 : Normalized c.lemmatizer h₀ nodes h₁)
    (s2 : TagsFixed c.lemmatizer.adjs c.nouns h₁ t nodes h₂) (s3 : chunk = true → Chunked h₂ t nodes h₃)
    (s3' : chunk = false → h₃ = h₂) (s4 : Canonical c.lemmatizer h₃ nodes h₄) (s5 : ArgsFound h₄ t nodes h₅) :
    ∀ r, P r → Sourced c tokens (h₅.node r) := by
  obtain ⟨tag, s2, -⟩ := s2
  have b1 : ∀ r ∈ nodes, Based c tokens (h₂.node r) := by
    intro r hr
    obtain ⟨s, l, x, e1, e2, e3⟩ := (s1 r).2 hr
    have := (raw r (hP r hr)).normalized e1 e2
    rw [s2, e3]
    exact ⟨this.lem, this.canon, this.verb, this.particles, this.chunk, this.active⟩
  have b3 : ∀ r, (∃ ch, (∀ w, ch = some w → r ∈ nodes → Derived c tokens w) ∧ h₃.node r = { h₂.node r with chunk := ch }) ∧
      (r ∉ nodes → h₃.node r = h₂.node r) := by
    intro r
    cases chunk with
    | false =>
      rw [s3' rfl]
      refine ⟨⟨(h₂.node r).chunk, ?_, rfl⟩, fun _ => rfl⟩
      intro w hw hr
      rw [(b1 r hr).chunk] at hw
      cases hw
    | true =>
      have s3 := s3 rfl
      refine ⟨?_, fun hr => (s3 r).2 (.inl hr)⟩
      rcases chunkText_of s3 r with ⟨cn, H, e⟩ | e
      · refine ⟨some cn, ?_, e⟩
        rintro w ⟨⟩ hr
        obtain ⟨-, -, before, k1, k2, -, k4⟩ := H
        have : cn = List.intercalate c!" " ((before.map (fun x => (h₂.node x).lem) ++ [(h₂.node r).lem]) ++ []) := by
          rw [List.append_nil, ← join_eq_intercalate, join_before, List.flatMap_map]
          exact k4
        rw [this]
        refine .words (by simp) ?_ (by simp [Particles])
        intro l hl
        rcases List.mem_append.mp hl with hl | hl
        · obtain ⟨x, hx, rfl⟩ := List.mem_map.mp hl
          exact (b1 x (k2 x hx).1).lem
        · rw [List.mem_singleton.mp hl]
          exact (b1 r hr).lem
      · refine ⟨(h₂.node r).chunk, ?_, e⟩
        intro w hw hr
        rw [(b1 r hr).chunk] at hw
        cases hw
  intro r hr
  have b4 : Sourced c tokens (h₄.node r) := by
    by_cases hm : r ∈ nodes
    · obtain ⟨⟨ch, h1, h2⟩, -⟩ := b3 r
      have k := (s4 r).2 hm
      rw [h2] at k
      exact (b1 r hm).canonicalized ch (fun w hw => h1 w hw hm) k
    · rw [(s4 r).1 hm, (b3 r).2 hm, s2, (s1 r).1 hm]
      have := (raw r hr).sourced
      exact ⟨this.lem, this.canon, this.particles, this.active⟩
  obtain ⟨_, _, _, _, _, _, _, _, _, _, _, _, _, _, e⟩ := s5.same r
  rw [e]
  exact ⟨b4.lem, b4.canon, b4.particles, b4.active⟩

end
end Model
