import Verif.Lemmas.ParseOrder
import Verif.Lemmas.SentPlain
import Verif.Lemmas.SameProcess
import Verif.Model.Testing
import Verif.Props.LabelledData
import Verif.Props.TrainingData
import Verif.Props.Pipeline

/-! Networks that reproduce the labels of a sentence lead the parser to its gold tree. -/

namespace Model
open Py Spec Props

variable {W : Type} {nets : Networks W}

theorem tag_ofCode_code (t : Tag) : Tag.ofCode t.code = .ok t := by cases t <;> decide +kernel

theorem mapM_tag_codes (l : List Tag) : (l.map Tag.code).mapM Tag.ofCode = .ok l := by
  induction l with
  | nil => rfl
  | cons a l ih => simp [tag_ofCode_code, ih, bind, Except.bind, pure, Except.pure]

theorem mapM_dep_codes (l : List Dep) : (l.map Dep.code).mapM Dep.ofCode = .ok l := by
  induction l with
  | nil => rfl
  | cons a l ih => simp [dep_ofCode_code, ih, bind, Except.bind, pure, Except.pure]

theorem slice_one (l : List Nat) (n : Nat) : slice l 1 ((n : Int) + 1) = (l.drop 1).take n := by
  have := slice_nat l 1 (n + 1)
  push_cast at this
  rw [this, List.drop_take, Nat.add_sub_cancel]

/-- The parse of a sentence whose labels the networks reproduce. -/
theorem gold_parse {f : W → List Nat} {g : List Nat → W → List Nat}
    {m : (List Nat × List Nat × W) × List Bool × List Bool → Trans} (hn : NetsOk nets)
    (hf : ∀ ws, nets.tags ws = ws.map f) (hg : ∀ ts ws, nets.deps ts ws = List.zipWith g ts ws)
    (hm : ∀ rows, nets.trans rows = rows.map m) {tuples : List TokenTuple} {r : Nat} (H : ProjectiveGold tuples r)
    (hlen : tuples.length ≤ 50) {w : W} {p : Parse (List Nat × List Nat × W)}
    (ho : OutRel nets (tuples.length + 2, w) p)
    (ht : ((f w).drop 1).take tuples.length = tuples.map fun t => t.1.code)
    (hd : ((g (f w) w).drop 1).take tuples.length = tuples.map fun t => t.2.1.code) {s : LabelledSentence}
    {trs : List (Nat × Nat × Trans)} (hs : LabelledSentence.new tuples = .ok s)
    (htrs : s.transitions (2 * tuples.length) = .ok (some trs))
    (htr : ∀ x ∈ trs, m ((f w, g (f w) w, w), oneHot 52 (x.1 + 1), oneHot 52 (x.2.1 + 1)) = x.2.2) :
    p.tags = tuples.map (fun t => t.1) ∧ p.arcs.Nodup ∧ (∀ d h c, (d, h, c) ∈ p.arcs ↔ GoldArc tuples d h c) ∧
      (p.arcs ≠ [] → rootOf p.arcs = some r) ∧ OrdArcs p.arcs ∧ ∀ a ∈ p.arcs, a.2.1 ≠ a.2.2 := by
  have hrow1 : (f w).length = 52 ∧ ∀ c ∈ f w, c < 17 := hn.tagsRow [w] (f w) (by rw [hf]; simp)
  have hrow2 : (g (f w) w).length = 52 ∧ ∀ c ∈ g (f w) w, c < 25 :=
    hn.depsRow [f w] [w] (g (f w) w) (by rw [hg]; simp)
  obtain ⟨p0, hp0, hfin⟩ := ho.rowwise f g hf hg
  simp only at hp0
  obtain ⟨s', ts, p0', p', e1, e2, e3, e4, e5, e6, e7, e8⟩ := C47_oracle_replays tuples r H (f w, g (f w) w, w)
    (f w) (g (f w) w) hrow1.2 hrow2.2 (by omega) hd
  rw [hs] at e1
  cases e1
  rw [htrs] at e2
  cases e2
  rw [hp0] at e3
  cases e3
  obtain ⟨tags, deps, k1, k2, k3, k4, k5⟩ := Parse.new_ok (f w, g (f w) w, w) tuples.length (f w) (g (f w) w) hrow1.2
    hrow2.2 (by omega) (by omega)
  rw [hp0] at k1
  cases k1
  have htags : tags = tuples.map fun t => t.1 := by
    rw [slice_one, ht] at k4
    have := mapM_tag_codes (tuples.map fun t => t.1)
    rw [List.map_map] at this
    have h := k4.symm.trans this
    cases h
    rfl
  have hdeps : deps = tuples.map fun t => t.2.1 := by
    rw [slice_one, hd] at k5
    have := mapM_dep_codes (tuples.map fun t => t.2.1)
    rw [List.map_map] at this
    have h := k5.symm.trans this
    cases h
    rfl
  have hsd : s.deps = tuples.map fun t => t.2.1 := by
    unfold LabelledSentence.new at hs
    split at hs
    · rename_i hr
      obtain ⟨tag, q, hrt⟩ := H.rootTok
      exact absurd rfl (goldRoot_none.mp hr _ (List.mem_of_getElem? hrt))
    · simp only [bind, Except.bind, pure, Except.pure] at hs
      split at hs
      · cases hs
      · cases hs; rfl
  have hinv := freshParse_inv (f w, g (f w) w, w) tags deps
  have hmats : (freshParse (f w, g (f w) w, w) tags deps).mats = (f w, g (f w) w, w) := by
    unfold freshParse; split <;> rfl
  have harcs : (freshParse (f w, g (f w) w, w) tags deps).arcs = [] := by
    unfold freshParse; split <;> rfl
  have hptags : (freshParse (f w, g (f w) w, w) tags deps).tags = tags := by
    unfold freshParse; split <;> rfl
  have hpdeps : (freshParse (f w, g (f w) w, w) tags deps).deps = deps := by
    unfold freshParse; split <;> rfl
  have hsync : Sync (freshParse (f w, g (f w) w, w) tags deps) trs := by
    have hv : s.validIdxs = validOf deps := by rw [validIdxs_eq, hsd, hdeps]
    unfold LabelledSentence.transitions at htrs
    rw [hv] at htrs
    cases hb : validOf deps with
    | nil =>
      rw [hb] at htrs
      cases htrs
      refine .done ?_
      unfold freshParse
      simp only [hb]
      rfl
    | cons b bs =>
      rw [hb] at htrs
      simp only at htrs
      obtain ⟨trs', h1, h2⟩ := oracle_sync s (2 * tuples.length) [] (freshParse (f w, g (f w) w, w) tags deps) trs hinv (by
        unfold freshParse
        simp only [hb]
        exact htrs)
      simp only [List.nil_append] at h1
      rw [h1]
      exact h2
  have hgood : Good (freshParse (f w, g (f w) w, w) tags deps) := ⟨hinv, by rw [hpdeps, k3]; exact hlen⟩
  have hrun := hsync.final hm (by
    intro x hx m1 m2 hmask
    rw [hmats]
    by_cases hlt : x.1 + 1 < 52 ∧ x.2.1 + 1 < 52
    · unfold makeMasks at hmask
      rw [makeMask_ok _ hlt.1, makeMask_ok _ hlt.2] at hmask
      cases hmask
      exact htr x hx
    · exfalso
      unfold makeMasks makeMask paddedSentLength at hmask
      simp only [bind, Except.bind, pure, Except.pure] at hmask
      by_cases h1 : x.1 + 1 < maxSentLength + 2
      · have h2 : ¬ x.2.1 + 1 < maxSentLength + 2 := by
          simp only [maxSentLength] at h1 ⊢; omega
        simp [h1, h2] at hmask
      · simp [h1] at hmask) hgood hfin
  rw [e4] at hrun
  cases hrun
  have hgp := ho.good.1
  obtain ⟨p'', g1, g2, g3, g4⟩ := runTrans_inv hinv (trs.map fun x => x.2.2)
  rw [e4] at g1
  cases g1
  refine ⟨?_, e6, e7, e8, runTrans_ord _ hinv (by rw [harcs]; exact List.Pairwise.nil) e4, ?_⟩
  · rw [g4.1, hptags, htags]
  · obtain ⟨dead, hc⟩ := hgp.core
    exact hc.ne

/-- A sentence whose tree is a root alone says nothing. -/
theorem process_alone {c : Logic} (hc : LogicOk c) {tokens : List Str} {tags : List Tag} {r : Nat}
    (h1 : r < tokens.length) (h2 : r < tags.length) (chunk : Bool) :
    ∃ x, c.process (tokens, tags, some { root := r }, chunk) = .ok (x, []) := by
  have i1 : index tokens (r : Int) = .ok tokens[r] := index_lt _ _ h1
  have i2 : index tags (r : Int) = .ok tags[r] := index_lt _ _ h2
  have hn : nodify c.lower tokens tags (some { root := r }) =
      .ok ((Heap.empty.alloc (Node.new c.lower r tokens[r] tags[r])).1,
        [(r, (Heap.empty.alloc (Node.new c.lower r tokens[r] tags[r])).2)],
        some { root := (Heap.empty.alloc (Node.new c.lower r tokens[r] tags[r])).2 }) := by
    unfold nodify
    simp only
    rw [if_pos (by rfl)]
    simp only [i1, i2, bind, Except.bind, pure, Except.pure]
  obtain ⟨h₁, h₂, h₃, h₄, h₅, ts, e, -, -, -, -, -, ⟨A, -⟩, S⟩ := Logic.process_some hc hn (hist := []) rfl (by
    simp [Dict.values]) chunk
  suffices hts : ts = [] from ⟨_, hts ▸ e⟩
  rw [List.eq_nil_iff_forall_not_mem]
  intro x hx
  have hs := (S x).mp hx
  set nt : Tree Dep Ref := { root := (Heap.empty.alloc (Node.new c.lower r tokens[r] tags[r])).2 } with hnt
  have hp : ∀ y, nt.parent y = none := fun y => rfl
  have subjs : ∀ v y, y ∉ (h₅.node v).subjs := by
    intro v y hy
    rcases (A.subjs v y).mp hy with ⟨_, n, _, _, h, -⟩ | ⟨n, _, _, _, h, -⟩ <;> rw [hp] at h <;> cases h
  have objs : ∀ v y, y ∉ (h₅.node v).objs := by
    intro v y hy
    rcases (A.objs v y).mp hy with ⟨_, n, _, _, h, -⟩ | ⟨n, _, _, _, h, -⟩ <;> rw [hp] at h <;> cases h
  have adjs : ∀ v y, y ∉ (h₅.node v).adjs := by
    intro v y hy
    rcases (A.adjs v y).mp hy with ⟨_, _, h, -⟩ | ⟨_, _, h, -⟩ <;> rw [hp] at h <;> cases h
  have pps : ∀ v y z, (y, z) ∉ (h₅.node v).ppsProps := by
    intro v y z hy
    obtain ⟨_, _, h, -⟩ := (A.pps v y z).mp hy
    rw [hp] at h; cases h
  have cops : ∀ v y z, (y, z) ∉ (h₅.node v).copulasProps := by
    intro v y z hy
    obtain ⟨_, _, _, _, h, -⟩ := (A.copulas v y z).mp hy
    rw [hp] at h; cases h
  have svis : ∀ v a y z, (a, y, z) ∉ (h₅.node v).subjsVerbsIprops := by
    intro v a y z hy
    obtain ⟨_, _, _, h, -⟩ := (A.svis v a y z).mp hy
    rw [hp] at h; cases h
  generalize x.args = args at hs
  cases hs with
  | clauseIntr h => exact objs _ _ h.2.2.2.2.1
  | clauseTrans h => exact objs _ _ h.2.2.2.2.1
  | clauseProp h => exact objs _ _ h.2.2.2.2.1
  | intr _ _ _ _ _ h => exact subjs _ _ h
  | trans _ _ _ h => exact subjs _ _ h
  | recip _ _ _ h => exact subjs _ _ h
  | passive _ _ _ _ h => exact objs _ _ h
  | indirect _ _ h => exact svis _ _ _ _ h
  | copula _ _ h => exact cops _ _ _ h
  | copulaActive _ _ h => exact cops _ _ _ h
  | participle _ _ h => exact pps _ _ _ h
  | adjective _ _ h => exact adjs _ _ h
  | adjectiveActive _ _ h => exact adjs _ _ h

/-- Testing a sample is processing one sentence. -/
theorem testSample_ok {c : Logic} {raw : List RawTuple} {g : GoldSentence} (hg : GoldSentence.read raw = .ok g)
    {x : Heap × Dict Nat Ref} {ts : List STuple} (hp : c.process (g.tokens, g.sent.tags, g.sent.tree, true) = .ok (x, ts))
    (R : Rounding) (k : Int) (hk : 0 < k) :
    (∀ sched, testSample c R k sched raw = .ok none ∨ testSample c R k sched raw = .ok (some ts)) ∧
    ∀ sched, ∃ sched', testSample c R k (sched ++ sched') raw = .ok (some ts) := by
  have hm : (sentPacks [g.tokens] [g.sent.tags] [g.sent.tree] true).mapM c.process = .ok [(x, ts)] := by
    simp [sentPacks, hp, bind, Except.bind, pure, Except.pure]
  obtain ⟨a1, a2⟩ := runMultithreads_of_ok R _ c.process _ hm k hk
  constructor
  · intro sched
    unfold testSample Logic.processAll
    simp only [hg, bind, Except.bind, pure, Except.pure]
    rcases a1 sched with e | e
    · left; simp only [e]
    · right; simp only [e]; rfl
  · intro sched
    obtain ⟨sched', e⟩ := a2 sched
    refine ⟨sched', ?_⟩
    unfold testSample Logic.processAll
    simp only [hg, bind, Except.bind, pure, Except.pure, e]
    rfl

/-- The tuples of a sentence whose labels the networks reproduce are those of its gold tree. -/
theorem gold_tuples {vectorize : List Str → Except PyErr (Nat × W)} {c : Logic} (ok : PipeOk nets vectorize c)
    {f : W → List Nat} {g : List Nat → W → List Nat}
    {m : (List Nat × List Nat × W) × List Bool × List Bool → Trans}
    (hf : ∀ ws, nets.tags ws = ws.map f) (hg : ∀ ts ws, nets.deps ts ws = List.zipWith g ts ws)
    (hm : ∀ rows, nets.trans rows = rows.map m) {tuples : List TokenTuple} {r : Nat} (H : ProjectiveGold tuples r)
    (hone : LeftUnique tuples) {tokens : List Str} (htok : tokens.length = tuples.length)
    (hlen : tuples.length ≤ 50) {w : W} (hw : vectorize tokens = .ok (tuples.length + 2, w))
    (ht : ((f w).drop 1).take tuples.length = tuples.map fun t => t.1.code)
    (hd : ((g (f w) w).drop 1).take tuples.length = tuples.map fun t => t.2.1.code) {s : LabelledSentence}
    {trs : List (Nat × Nat × Trans)} (hs : LabelledSentence.new tuples = .ok s)
    (htrs : s.transitions (2 * tuples.length) = .ok (some trs))
    (htr : ∀ x ∈ trs, m ((f w, g (f w) w, w), oneHot 52 (x.1 + 1), oneHot 52 (x.2.1 + 1)) = x.2.2)
    {ss : List (List Str)} {tags : List (List Tag)} {trees : List (Option (Tree Dep Nat))}
    (h : Props.Returned nets vectorize ss tags trees) {i : Nat} (hi : ss[i]? = some tokens) (chunk : Bool) :
    ∃ o x x' ts, tags[i]? = some s.tags ∧ trees[i]? = some o ∧ c.process (tokens, s.tags, o, chunk) = .ok (x, ts) ∧
      c.process (tokens, s.tags, s.tree, chunk) = .ok (x', ts) := by
  obtain ⟨vecs, hv, ps, hps, htg, htree⟩ := h.spec
  have hvi : vecs[i]? = some (tuples.length + 2, w) := by
    have hfa := mapM_forall₂ hv
    have hlt := (List.getElem?_eq_some_iff.mp hi)
    rw [List.forall₂_iff_get] at hfa
    obtain ⟨hi1, hi2⟩ := hlt
    have := hfa.2 i hi1 (hfa.1 ▸ hi1)
    simp only [List.get_eq_getElem, hi2, hw, Except.ok.injEq] at this
    rw [List.getElem?_eq_getElem (hfa.1 ▸ hi1), ← this]
  obtain ⟨p, hpi, ho⟩ : ∃ p, ps[i]? = some p ∧ OutRel nets (tuples.length + 2, w) p := by
    rw [List.forall₂_iff_get] at hps
    obtain ⟨hi1, hi2⟩ := List.getElem?_eq_some_iff.mp hvi
    have := hps.2 i hi1 (hps.1 ▸ hi1)
    simp only [List.get_eq_getElem, hi2] at this
    exact ⟨_, List.getElem?_eq_getElem (hps.1 ▸ hi1), this⟩
  obtain ⟨k1, k2, k3, k4, k5, k6⟩ := gold_parse ok.nets hf hg hm H hlen ho ht hd hs htrs htr
  obtain ⟨o, ho1, ho2⟩ : ∃ o, trees[i]? = some o ∧ buildParseTree p.arcs = .ok o := by
    have := congrArg (fun l => l[i]?) htree
    simp only [List.getElem?_map, hpi, Option.map_some] at this
    cases hti : trees[i]? with
    | none => rw [hti] at this; cases this
    | some o =>
      rw [hti] at this
      simp only [Option.map_some, Option.some.injEq] at this
      exact ⟨o, rfl, this⟩
  have hsame : s.tags = tuples.map (fun t => t.1) ∧ ∃ tree, s.tree = some tree ∧ buildTree r (goldArcs tuples) = .ok tree := by
    unfold LabelledSentence.new at hs
    split at hs
    · rename_i hr
      obtain ⟨tag, q, hrt⟩ := H.rootTok
      exact absurd rfl (goldRoot_none.mp hr _ (List.mem_of_getElem? hrt))
    · rename_i r' hr
      simp only [bind, Except.bind, pure, Except.pure] at hs
      split at hs
      · cases hs
      · rename_i tree hbt
        cases hs
        have : r' = r := by
          unfold goldRoot at hr
          rw [Option.map_eq_some_iff] at hr
          obtain ⟨⟨⟨tag', d', q'⟩, j⟩, hfnd, rfl⟩ := hr
          have g1 := List.find?_some hfnd
          have g2 := List.mem_of_find?_eq_some hfnd
          rw [List.mem_zipIdx_iff_getElem?] at g2
          simp only [decide_eq_true_eq] at g1 g2
          subst g1
          exact H.oneRoot _ _ _ g2
        subst this
        exact ⟨rfl, tree, rfl, hbt⟩
  obtain ⟨hst, tree, hstree, hbt⟩ := hsame
  have htags : tags[i]? = some s.tags := by
    rw [htg, List.getElem?_map, hpi, hst, Option.map_some, k1]
  rw [hstree]
  by_cases hnil : p.arcs = []
  · have hga : goldArcs tuples = [] := by
      rw [List.eq_nil_iff_forall_not_mem]
      rintro ⟨d, a, b⟩ hmem
      have := (k3 d a b).mpr (mem_goldArcs.mp hmem)
      rw [hnil] at this
      cases this
    rw [hga] at hbt
    cases hbt
    rw [hnil] at ho2
    cases ho2
    obtain ⟨tag, q, hrt⟩ := H.rootTok
    have hr := (List.getElem?_eq_some_iff.mp hrt).1
    obtain ⟨x, hx⟩ := process_alone ok.logic (tokens := tokens) (tags := s.tags) (r := r) (by omega)
      (by rw [hst, List.length_map]; exact hr) chunk
    exact ⟨none, _, x, [], htags, ho1, rfl, hx⟩
  · have hroot := k4 hnil
    cases o with
    | none =>
      unfold buildParseTree at ho2
      rw [hroot] at ho2
      simp only at ho2
      cases hbp : buildTree r p.arcs <;> rw [hbp] at ho2 <;> cases ho2
    | some t =>
      obtain ⟨r', hr', hbt'⟩ := buildParseTree_some ho2
      rw [hroot] at hr'
      cases hr'
      have S := sameArcs_gold k2 k6 k3 k5 hone
      have e := process_same hbt hbt' S c tokens s.tags chunk
      obtain ⟨⟨x, ts⟩, hx⟩ := process_ok h ok.logic htags ho1 (tokens := tokens)
        (by rw [hst, List.length_map]; exact htok) chunk
      exact ⟨some t, x, x, ts, htags, ho1, hx, e.trans hx⟩

end Model
