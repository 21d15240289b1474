import Verif.Lemmas.Voice
import Verif.Props.Clauses

/-! C114, C115: active forms are also reported as passive ones. -/

namespace Props
open Py Model Spec

variable {ck : Bool} {c : Logic} {tokens : List Str} {tg : List Tag} {t : Tree Dep Nat} {ts : List STuple}

theorem Reported.voiced (H : Reported ck c tokens tg t ts) : ∃ h nodes, VoiceFacts c tokens tg t h nodes ∧
    ∀ x, x ∈ ts ↔ Said c.pp h nodes x.args := by
  obtain ⟨hc, hl, ⟨W, S, nets, vectorize, sentences, tags, trees, i, hr, ht, hg⟩, st, hp⟩ := H
  obtain ⟨V, E⟩ := Model.voiced hr hc ht hg hl hp
  exact ⟨_, _, V, E⟩

section
variable {h : Heap} {nodes : List Ref}

theorem VoiceFacts.participle (V : VoiceFacts c tokens tg t h nodes) {v : Ref} (hv : v ∈ nodes) (hg : (h.node v).tag = .VERB) :
    Voices c tokens (h.node v).canon (Spec.pastParticiple c.pp h v) := by
  obtain ⟨a1, a2, a3⟩ := V.verb v hv hg
  exact ⟨_, _, _, a2, a3, join_eq_intercalate _ _, .inl ⟨a1, c.pp_eq _⟩⟩

/-- The passive form of a transitive statement. -/
theorem VoiceFacts.passive (V : VoiceFacts c tokens tg t h nodes) {a b : Argument} {v : Str} {pol : Bool}
    (hs : Said c.pp h nodes [a, ⟨v, c!"T", pol⟩, b]) (hv : v ∉ [c!"have", c!"get"]) :
    ∃ w pol' x, Voices c tokens v x ∧ Said c.pp h nodes [b, ⟨w, c!"C", pol'⟩, ⟨x, c!"L", true⟩] ∧
      (OnlyVerbsNegated tg t → pol' = pol) := by
  generalize hx : [a, (⟨v, c!"T", pol⟩ : Argument), b] = l at hs
  cases hs <;> simp only [List.cons.injEq, Argument.mk.injEq, reduceCtorEq, and_true, and_false, false_and] at hx <;>
    try (exfalso; revert hx; simp; done)
  case trans s u o a' b' h1 h2 h3 h4 h5 h6 h7 h8 h9 =>
    obtain ⟨rfl, ⟨rfl, -, rfl⟩, rfl⟩ := hx
    refine ⟨_, _, _, VoiceFacts.participle V h1 h3.1, .passive h1 h3.1 h3.2.2 hv h6 h7 h9, fun hn => ?_⟩
    have hs : (h.node s).isAff = true := by
      by_contra hf
      have := (V.neg hn s (by simpa using hf)).1
      unfold Nominal at h5
      rw [this] at h5
      simp [nominal] at h5
    unfold subjPolarity
    rw [if_neg (List.ne_nil_of_mem h4), decide_eq_true ⟨s, h4, hs⟩, hs]
    rfl
  case copulaActive n q p w x a' b' h1 h2 h3 h4 h5 h6 h7 h8 h9 =>
    obtain ⟨rfl, ⟨rfl, -, rfl⟩, rfl⟩ := hx
    refine ⟨_, _, _, V.adj _ _ h5.1, .copula h1 h2 h3 (.inr h4) h9 ⟨rfl, .inl ⟨h4, .pp h5⟩, rfl⟩, fun hn => ?_⟩
    have aff : ∀ r, (h.node r).tag ≠ .VERB → (h.node r).isAff = true := by
      intro r hr
      by_contra hf
      exact hr (V.neg hn r (by simpa using hf)).1
    have nom : ∀ r, Nominal h r → (h.node r).isAff = true := by
      intro r hr
      refine aff r fun k => ?_
      unfold Nominal at hr
      rw [k] at hr
      simp [nominal] at hr
    have hq : (h.node q).isAff = true := by
      by_contra hf
      exact (V.neg hn q (by simpa using hf)).2 _ _ h3
    rw [nom _ h2, nom _ h7, hq, aff p (by rw [h4]; decide)]
  case adjectiveActive n p w x a' b' h1 h2 h3 h5 h6 h7 h8 h9 =>
    obtain ⟨rfl, ⟨rfl, -, rfl⟩, rfl⟩ := hx
    refine ⟨_, _, _, V.adj _ _ h5.1, .adjective h1 h2 h3 h9 ⟨rfl, .pp h5, rfl⟩, fun hn => ?_⟩
    have nom : ∀ r, Nominal h r → (h.node r).isAff = true := by
      intro r hr
      by_contra hf
      have k := (V.neg hn r (by simpa using hf)).1
      unfold Nominal at hr
      rw [k] at hr
      simp [nominal] at hr
    rw [nom _ h2, nom _ h7]
    exact (affirmed_true _).symm

end

/-- **C114.** "People sing songs" also says "songs are sung": whoever does something to something, it is reported that it is
done to it, with the participle of the verb and its particles. Only "have" and "get" have no passive. -/
theorem C114_passive (H : Reported ck c tokens tg t ts) {a b : Argument} {v : Str} {pol : Bool}
    (hx : STuple.mk [a, ⟨v, c!"T", pol⟩, b] ∈ ts) (hv : v ∉ [c!"have", c!"get"]) :
    ∃ w pol' x, Voices c tokens v x ∧ STuple.mk [b, ⟨w, c!"C", pol'⟩, ⟨x, c!"L", true⟩] ∈ ts := by
  obtain ⟨h, nodes, V, E⟩ := H.voiced
  obtain ⟨w, pol', x, h1, h2, -⟩ := VoiceFacts.passive V ((E _).mp hx) hv
  exact ⟨w, pol', x, h1, (E _).mpr h2⟩

/-- **C114.** "People want children to sing songs" also says "songs are sung". -/
theorem C114_clause_passive (H : Reported ck c tokens tg t ts) {a a' b : Argument} {u v : Str} {pol pol' : Bool}
    (hx : STuple.mk [a, ⟨u, c!"T", pol⟩, a', ⟨v, c!"T", pol'⟩, b] ∈ ts) (hv : v ∉ [c!"have", c!"get"]) :
    ∃ pol' x, Voices c tokens v x ∧ STuple.mk [b, ⟨c!"be", c!"C", pol'⟩, ⟨x, c!"L", true⟩] ∈ ts := by
  obtain ⟨h, nodes, V, E⟩ := H.voiced
  have hs := (E _).mp hx
  generalize he : [a, (⟨u, c!"T", pol⟩ : Argument), a', (⟨v, c!"T", pol'⟩ : Argument), b] = l at hs
  replace hs : Said c.pp h nodes l := by rw [← he]; exact (E _).mp hx
  cases hs <;> simp only [List.cons.injEq, Argument.mk.injEq, reduceCtorEq, and_true, and_false, false_and] at he <;>
    try (exfalso; revert he; simp; done)
  case clauseTrans s m o s' o' d d' b' h1 h2 h3 h4 h5 h6 h7 h8 =>
    obtain ⟨-, -, -, ⟨rfl, -⟩, rfl⟩ := he
    have ho := V.obj _ _ h1.2.2.2.2.1 h1.2.2.2.2.2
    exact ⟨_, _, VoiceFacts.participle V ho h1.2.2.2.2.2, (E _).mpr (.passive ho h1.2.2.2.2.2 h3 hv h4 h5 h8)⟩

/-- **C114** for whole documents. -/
theorem C114_documents {W : Type} {nets : Networks W} {vectorize : List Str → Except PyErr (Nat × W)}
    (ok : PipeOk nets vectorize c) (sentencizer : Str → Except PyErr (List (List Str))) (texts : List Str)
    (sents : List (List (List Str))) (hs : List.Forall₂ (fun text ss => sentencizer text = .ok ss) texts sents)
    (cfg : PipelineCfg) (hk : 0 < cfg.nbCores) (hb : 0 < cfg.batchSize) (docs : List Document)
    (hd : pipelineCall cfg sentencizer vectorize nets c texts ck = .ok (some docs)) :
    List.Forall₂ (fun ss d => List.Forall₂ (fun s sent => ∀ a v pol b, STuple.mk [a, ⟨v, c!"T", pol⟩, b] ∈ sent.stuples →
      v ∉ [c!"have", c!"get"] → ∃ w pol' x, Voices c s v x ∧ STuple.mk [b, ⟨w, c!"C", pol'⟩, ⟨x, c!"L", true⟩] ∈ sent.stuples)
      (splitTokens ss) d.sentences) sents docs := by
  refine (C105_documents ok sentencizer texts sents hs cfg hk hb docs hd).imp fun ss d h => h.imp fun s sent h => ?_
  intro a v pol b hx hv
  rcases h with h | ⟨tg, t, H⟩
  · rw [h] at hx
    cases hx
  · exact C114_passive H hx hv

/-- The expectation of C115: the passive is negated when the active is. -/
def VoicesAgree (ck : Bool) : Prop :=
  ∀ (c : Logic) (tokens : List Str) (tg : List Tag) (t : Tree Dep Nat) (ts : List STuple), Reported ck c tokens tg t ts →
    ∀ (a b : Argument) (v : Str) (pol : Bool), STuple.mk [a, ⟨v, c!"T", pol⟩, b] ∈ ts → v ∉ [c!"have", c!"get"] →
      ∃ w x, Voices c tokens v x ∧ STuple.mk [b, ⟨w, c!"C", pol⟩, ⟨x, c!"L", true⟩] ∈ ts

/-- **C115** (partial: full statement `VoicesAgree`, refuted by `C115_voices_agree_false`). When only verbs other than copulas
are negated, the passive form is negated when the active form is. -/
theorem C115_voices_agree_partial (H : Reported ck c tokens tg t ts) (hn : OnlyVerbsNegated tg t) {a b : Argument} {v : Str}
    {pol : Bool} (hx : STuple.mk [a, ⟨v, c!"T", pol⟩, b] ∈ ts) (hv : v ∉ [c!"have", c!"get"]) :
    ∃ w x, Voices c tokens v x ∧ STuple.mk [b, ⟨w, c!"C", pol⟩, ⟨x, c!"L", true⟩] ∈ ts := by
  obtain ⟨h, nodes, V, E⟩ := H.voiced
  obtain ⟨w, pol', x, h1, h2, h3⟩ := VoiceFacts.passive V ((E _).mp hx) hv
  exact ⟨w, x, h1, (E _).mpr (h3 hn ▸ h2)⟩

/-- "No foxes and formats bake foxes." -/
def noFoxes : Demo where
  tokens := [c!"No", c!"foxes", c!"and", c!"formats", c!"bake", c!"foxes"]
  tags := [.DET, .NOUN, .CONJ, .NOUN, .VERB, .NOUN]
  deps := [.NEG, .SUBJ, .NODEP, .AND, .ROOT, .OBJ]
  trans := [(0, 1, .LEFT), (1, 3, .RIGHT), (3, 4, .REDUCE), (1, 4, .LEFT), (4, 5, .RIGHT)]
  root := 4
  arcs := [(.NEG, 1, 0), (.AND, 1, 3), (.SUBJ, 4, 1), (.OBJ, 4, 5)]

theorem noFoxes_parsed : noFoxes.Parsed := by decide +kernel

theorem noFoxes_tuples : ∀ ck, (noFoxes.tuples ck).map (fun x => x.flatten true) =
    [c!"NTN(fox, NOT bake, fox)", c!"NTN(format, bake, fox)", c!"NCL(fox, be, baked)"] := by
  decide +kernel

/-- All that is said of foxes with a copula. -/
def OfFoxes (d : Demo) (pol : Bool) : Prop :=
  ∀ ck, ∀ x ∈ d.tuples ck, x.args.head? = some ⟨c!"fox", c!"N", true⟩ → ∀ a ∈ x.args[1]?, a.code = c!"C" → a.isAff = pol

instance (d : Demo) (pol : Bool) : Decidable (OfFoxes d pol) := by unfold OfFoxes; infer_instance

theorem bakedFoxes_of : OfFoxes bakedFoxes false := by decide +kernel
theorem noFoxes_of : OfFoxes noFoxes true := by decide +kernel

/-- **C115** (negation). "Foxes are not baked by formats": formats bake foxes, affirmatively. And "no foxes and formats bake
foxes": foxes do not bake foxes, but foxes are baked. -/
theorem C115_voices_agree_false (ck : Bool) : ¬ VoicesAgree ck ∧
    STuple.mk [⟨c!"format", c!"N", true⟩, ⟨c!"bake", c!"T", true⟩, ⟨c!"fox", c!"N", true⟩] ∈ bakedFoxes.tuples ck ∧
    OfFoxes bakedFoxes false ∧
    STuple.mk [⟨c!"fox", c!"N", true⟩, ⟨c!"bake", c!"T", false⟩, ⟨c!"fox", c!"N", true⟩] ∈ noFoxes.tuples ck ∧
    OfFoxes noFoxes true := by
  refine ⟨fun h => ?_, by cases ck <;> decide +kernel, bakedFoxes_of, by cases ck <;> decide +kernel, noFoxes_of⟩
  obtain ⟨w, x, -, hx⟩ := h _ _ _ _ _ (Demo.reported bakedFoxes_parsed) ⟨c!"format", c!"N", true⟩ ⟨c!"fox", c!"N", true⟩ c!"bake" true
    (by cases ck <;> decide +kernel) (by decide)
  have := bakedFoxes_of ck _ hx rfl _ rfl rfl
  cases this

/-- "Foxes do not bake formats." -/
def notBaking : Demo where
  tokens := [c!"Foxes", c!"do", c!"not", c!"bake", c!"formats"]
  tags := [.NOUN, .VERB, .ADV, .VERB, .NOUN]
  deps := [.SUBJ, .AUX, .NEG, .ROOT, .OBJ]
  trans := [(2, 3, .LEFT), (1, 3, .LEFT), (0, 3, .LEFT), (3, 4, .RIGHT)]
  root := 3
  arcs := [(.NEG, 3, 2), (.AUX, 3, 1), (.SUBJ, 3, 0), (.OBJ, 3, 4)]

theorem notBaking_parsed : notBaking.Parsed := by decide +kernel

example : ∃ w x, Voices demoLogic notBaking.tokens c!"bake" x ∧
    STuple.mk [⟨c!"format", c!"N", true⟩, ⟨w, c!"C", false⟩, ⟨x, c!"L", true⟩] ∈ notBaking.tuples ck := by
  refine C115_voices_agree_partial (Demo.reported notBaking_parsed) ?_ (a := ⟨c!"fox", c!"N", true⟩)
    (by cases ck <;> decide +kernel) (by decide)
  intro k x hk
  rw [Demo.mem notBaking_parsed] at hk
  have k1 : ∀ a ∈ notBaking.arcs, a.1 = .NEG → a.2.1 = 3 := by decide
  have := k1 _ hk rfl
  simp only at this
  subst this
  refine ⟨rfl, fun y => ?_⟩
  rw [Demo.mem notBaking_parsed, Demo.mem notBaking_parsed]
  have k2 : ∀ a ∈ notBaking.arcs, a.1 ≠ .PROP ∧ a.1 ≠ .FLAT := by decide
  exact ⟨fun q => (k2 _ q).1 rfl, fun q => (k2 _ q).2 rfl⟩

/-- "Foxes who bake themselves are not baked by formats": the agent bakes, and foxes are baked. -/
example : ∃ w pol x, Voices demoLogic bakedFoxes.tokens c!"bake" x ∧
    STuple.mk [⟨c!"fox", c!"N", true⟩, ⟨w, c!"C", pol⟩, ⟨x, c!"L", true⟩] ∈ bakedFoxes.tuples ck :=
  C114_passive (Demo.reported bakedFoxes_parsed) (a := ⟨c!"format", c!"N", true⟩) (pol := true) (by cases ck <;> decide +kernel)
    (by decide)

/-- "Foxes do not want to bake formats": formats are baked. -/
example : ∃ pol x, Voices demoLogic notWanting.tokens c!"bake" x ∧
    STuple.mk [⟨c!"format", c!"N", true⟩, ⟨c!"be", c!"C", pol⟩, ⟨x, c!"L", true⟩] ∈ notWanting.tuples ck :=
  C114_clause_passive (Demo.reported notWanting_parsed) (a := ⟨c!"fox", c!"N", true⟩) (a' := ⟨c!"fox", c!"N", true⟩) (u := c!"want")
    (pol := false) (pol' := true) (by cases ck <;> decide +kernel) (by decide)

/-- "bake" and "baked" belong together, "bake" and "fox" do not. -/
example : Voices demoLogic notBaking.tokens c!"bake" c!"baked" :=
  ⟨c!"bake", c!"baked", [], by simp [Particles], rfl, rfl, .inl ⟨⟨c!"bake", ⟨[c!"bake"], by simp, by decide, rfl⟩, .inl (by decide)⟩,
    by decide +kernel⟩⟩

end Props
