import Verif.Props.FunctionWords
import Verif.Props.Provenance

/-! C44 and C100 in terms of what the networks predict for a sentence. -/

namespace Props
open Py Model Spec

variable {W : Type} {nets : Networks W} {c : Logic}

theorem mapM_getElem {α β : Type} {f : α → Except PyErr β} {l : List α} {ys : List β} (h : l.mapM f = .ok ys) {i : Nat} {y : β}
    (hy : ys[i]? = some y) : ∃ x, l[i]? = some x ∧ f x = .ok y := by
  have h := mapM_ok_iff_forall₂.mp h
  rw [List.forall₂_iff_get] at h
  obtain ⟨hlt, rfl⟩ := List.getElem?_eq_some_iff.mp hy
  exact ⟨l[i], List.getElem?_eq_getElem (by rw [h.1]; exact hlt), h.2 i (by rw [h.1]; exact hlt) hlt⟩

theorem mapM_getElem' {α β : Type} {f : α → Except PyErr β} {l : List α} {ys : List β} (h : l.mapM f = .ok ys) {i : Nat} {x : α}
    (hx : l[i]? = some x) : ∃ y, ys[i]? = some y ∧ f x = .ok y := by
  have h := mapM_ok_iff_forall₂.mp h
  rw [List.forall₂_iff_get] at h
  obtain ⟨hlt, rfl⟩ := List.getElem?_eq_some_iff.mp hx
  exact ⟨ys[i], List.getElem?_eq_getElem (by rw [← h.1]; exact hlt), h.2 i hlt (by rw [← h.1]; exact hlt)⟩

/-- **C44.** With networks that predict rows independently, what the parser returns for a sentence is what they predict for it,
whatever the other sentences: the tag of a token is the one predicted at its place behind the padding, and an arc has the
label predicted for its child, `ROOT` turned into `SPLIT`. -/
theorem C44_predicted {S : Type} {vectorize : S → Except PyErr (Nat × W)} {sentences : List S} {tags : List (List Tag)}
    {trees : List (Option (Tree Dep Nat))} (h : Returned nets vectorize sentences tags trees) (f : W → List Nat)
    (g : List Nat → W → List Nat) (hf : ∀ ws, nets.tags ws = ws.map f) (hg : ∀ ts ws, nets.deps ts ws = List.zipWith g ts ws)
    (i : Nat) (s : S) (hs : sentences[i]? = some s) (n : Nat) (w : W) (hv : vectorize s = .ok (n + 2, w)) :
    ∃ tg o, tags[i]? = some tg ∧ trees[i]? = some o ∧ tg.length = n ∧
      (∀ (k : Nat) t, tg[k]? = some t → ∃ code, (f w)[k + 1]? = some code ∧ Tag.ofCode code = .ok t) ∧
      ∀ t, o = some t → ∀ l p k, (l, k) ∈ t.children p → p < n ∧ k < n ∧
        (∃ code d, (g (f w) w)[p + 1]? = some code ∧ Dep.ofCode code = .ok d ∧ d ≠ .NODEP) ∧
        ∃ code d, (g (f w) w)[k + 1]? = some code ∧ Dep.ofCode code = .ok d ∧ d ≠ .NODEP ∧
          l = if d = .ROOT then .SPLIT else d := by
  obtain ⟨vecs, h1, ps, h2, h3, h4⟩ := h.spec
  obtain ⟨vw, hvi, hvs⟩ := mapM_getElem' h1 hs
  rw [hv] at hvs
  obtain rfl := Except.ok.inj hvs
  have hlt := (List.getElem?_eq_some_iff.mp hvi).1
  rw [List.forall₂_iff_get] at h2
  have hlt' : i < ps.length := by rw [← h2.1]; exact hlt
  have ho := h2.2 i hlt hlt'
  have hve : vecs[i] = (n + 2, w) := by
    rw [List.getElem?_eq_getElem hlt] at hvi; exact Option.some.inj hvi
  simp only [List.get_eq_getElem, hve] at ho
  obtain ⟨p₀, i1, i2⟩ := ho.rowwise f g hf hg
  simp only at i1
  have hn : n ≤ maxSentLength := by
    obtain ⟨n', w', hn', e⟩ := h.vec s (List.mem_of_getElem? hs)
    rw [hv] at e
    obtain ⟨e, -⟩ := Prod.mk.inj (Except.ok.inj e)
    omega
  have ht := h.netsOk.tagsRow [w] (f w) (by rw [hf]; simp)
  have hd := h.netsOk.depsRow [f w] [w] (g (f w) w) (by rw [hg]; simp)
  have hpl : paddedSentLength = maxSentLength + 2 := rfl
  obtain ⟨tg, deps, e1, e2, e3, e4, e5⟩ := Parse.new_ok (f w, g (f w) w, w) n (f w) (g (f w) w) ht.2 hd.2
    (by rw [hd.1]; omega) (by rw [ht.1]; omega)
  rw [i1] at e1
  obtain rfl := Except.ok.inj e1
  have fields := freshParse_fields (f w, g (f w) w, w) tg deps
  obtain ⟨⟨⟨⟨dead, hc⟩, -⟩, -⟩, g2, g3⟩ := i2.good ⟨freshParse_inv _ _ _, by rw [fields.2.2, e3]; exact hn⟩
  rw [fields.2.1] at g2
  rw [g3, fields.2.2] at hc
  have hsl : ∀ l : List Nat, slice l 1 ((n : Int) + 1) = (l.take (n + 1)).drop 1 := by
    intro l
    have := slice_nat l 1 (n + 1)
    push_cast at this
    exact this
  rw [hsl] at e4 e5
  have shift : ∀ {l : List Nat} {k code : Nat}, ((l.take (n + 1)).drop 1)[k]? = some code → l[k + 1]? = some code := by
    intro l k code hk
    rw [List.getElem?_drop, List.getElem?_take] at hk
    split at hk
    · rw [Nat.add_comm]; exact hk
    · cases hk
  have hlt4 : i < trees.length := by
    have := congrArg List.length h4
    simp only [List.length_map] at this
    omega
  refine ⟨tg, trees[i], ?_, List.getElem?_eq_getElem hlt4, e2, fun k t hk => ?_, fun t hto l p k hm => ?_⟩
  · rw [h3, List.getElem?_map, List.getElem?_eq_getElem hlt', ← g2]; rfl
  · obtain ⟨code, hk, hof⟩ := mapM_getElem e4 hk
    exact ⟨code, shift hk, hof⟩
  · have hb : buildParseTree ps[i].arcs = .ok (some t) := by
      have := congrArg (fun l => l[i]?) h4
      simp only [List.getElem?_map, List.getElem?_eq_getElem hlt', List.getElem?_eq_getElem hlt4, Option.map_some,
        Option.some.injEq, hto] at this
      exact this
    obtain ⟨r, -, hbt⟩ := buildParseTree_some hb
    have hm := ((buildTree_inv hbt).mem_children _ _ _).mp hm
    obtain ⟨b1, b2⟩ := (hc.before _ hm).mem
    obtain ⟨dh, hdh, hdhn⟩ := hc.valid p (by simp only [List.mem_append]; tauto)
    obtain ⟨d, hdc, hdn⟩ := hc.valid k (by simp only [List.mem_append]; tauto)
    obtain ⟨d', hd1, hd2⟩ := hc.label _ hm
    simp only at hd1 hd2
    rw [hdc] at hd1
    cases hd1
    obtain ⟨code, hk, hof⟩ := mapM_getElem e5 hdc
    obtain ⟨codeh, hkh, hofh⟩ := mapM_getElem e5 hdh
    exact ⟨by rw [← e3]; exact (List.getElem?_eq_some_iff.mp hdh).1, by rw [← e3]; exact (List.getElem?_eq_some_iff.mp hdc).1,
      ⟨codeh, dh, shift hkh, hofh, hdhn⟩, code, d, shift hk, hof, hdn, hd2⟩

/-- **C100.** In every document: a sentence for which no negation is predicted has only affirmative tuples. -/
theorem C100_documents {vectorize : List Str → Except PyErr (Nat × W)} (ok : PipeOk nets vectorize c) (f : W → List Nat)
    (g : List Nat → W → List Nat) (hf : ∀ ws, nets.tags ws = ws.map f) (hg : ∀ ts ws, nets.deps ts ws = List.zipWith g ts ws)
    (chunk : Bool) (sentencizer : Str → Except PyErr (List (List Str))) (texts : List Str) (sents : List (List (List Str)))
    (hs : List.Forall₂ (fun text ss => sentencizer text = .ok ss) texts sents) (cfg : PipelineCfg)
    (hk : 0 < cfg.nbCores) (hb : 0 < cfg.batchSize) (docs : List Document)
    (hd : pipelineCall cfg sentencizer vectorize nets c texts chunk = .ok (some docs)) :
    List.Forall₂ (fun ss d => List.Forall₂ (fun s (sent : Sentence) =>
      (∀ n w, vectorize s = .ok (n + 2, w) → ∀ k < n, (g (f w) w)[k + 1]? ≠ some 17) →
        ∀ x ∈ sent.stuples, (∀ a ∈ x.args, a.isAff = true) ∧ x.flatten true = x.flatten false)
      (splitTokens ss) d.sentences) sents docs := by
  refine documents_hold ok (fun s ts => (∀ n w, vectorize s = .ok (n + 2, w) → ∀ k < n, (g (f w) w)[k + 1]? ≠ some 17) →
    ∀ x ∈ ts, (∀ a ∈ x.args, a.isAff = true) ∧ x.flatten true = x.flatten false) chunk ?_ sentencizer texts sents hs cfg hk hb docs hd
  intro sentences tags trees hr i tokens tg o st ts h1 h2 h3 h4 h5 hneg
  cases o with
  | none =>
    rw [Logic.process_none] at h5
    obtain rfl := (Prod.mk.inj (Except.ok.inj h5)).2
    simp
  | some t =>
    obtain ⟨n, w, -, hv⟩ := hr.vec tokens (List.mem_of_getElem? h1)
    obtain ⟨tg', o', e1, e2, -, -, hl⟩ := C44_predicted hr f g hf hg i tokens h1 n w hv
    rw [h3] at e2
    obtain rfl := Option.some.inj e2
    refine C100_affirmative tokens tg t chunk (fun p k hm => ?_) st ts h5
    obtain ⟨-, hk, -, code, d, hc, hof, -, he⟩ := hl t rfl _ p k hm
    have hd : d = .NEG := by
      by_cases hdr : d = .ROOT
      · rw [if_pos hdr] at he
        cases he
      · rw [if_neg hdr] at he
        exact he.symm
    subst hd
    have : code = 17 := by
      have := ((C91_codes code).2.2.2.1 .NEG).mp hof
      have h17 : ∀ p ∈ depNumbers, p.2 = Dep.NEG → p.1 = 17 := by decide
      exact h17 _ this rfl
    subst this
    exact hneg n w hv k hk hc

/-- The networks of the examples predict no negation. -/
example (texts : List Str) (sents : List (List (List Str)))
    (hs : List.Forall₂ (fun text ss => sentencize asciiDB (tokenize asciiDB) text = .ok ss) texts sents) (docs : List Document)
    (hd : demoPipe (demoCfg 1 (oneThread 9) 9) texts = .ok (some docs)) :
    ∀ d ∈ docs, ∀ s ∈ d.sentences, ∀ x ∈ s.stuples, x.flatten true = x.flatten false := by
  have h := C100_documents demoPipe_ok _ _ (fun _ => rfl) (fun _ _ => rfl) true _ texts sents hs _ (by decide) (by decide) docs hd
  intro d hd s hs x hx
  obtain ⟨i, hi⟩ := List.mem_iff_getElem?.mp hd
  rw [List.forall₂_iff_get] at h
  obtain ⟨hlt, rfl⟩ := List.getElem?_eq_some_iff.mp hi
  have h2 := h.2 i (by rw [h.1]; exact hlt) hlt
  rw [List.forall₂_iff_get] at h2
  obtain ⟨j, hj⟩ := List.mem_iff_getElem?.mp hs
  obtain ⟨hltj, rfl⟩ := List.getElem?_eq_some_iff.mp hj
  refine (h2.2 j (by rw [h2.1]; exact hltj) hltj ?_ x hx).2
  intro n w _ k _ hk
  have : ∀ k : Nat, ([0, Dep.SUBJ.code, Dep.ROOT.code, Dep.OBJ.code] ++ List.replicate 48 1)[k]? ≠ some 17 := by
    intro k hk
    have : 17 ∈ [0, Dep.SUBJ.code, Dep.ROOT.code, Dep.OBJ.code] ++ List.replicate 48 1 := List.mem_of_getElem? hk
    exact absurd this (by decide +kernel)
  exact this _ hk

end Props
