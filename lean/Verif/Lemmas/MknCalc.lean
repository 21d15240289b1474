import Verif.Lemmas.Mkn

namespace Model
open Py

/-! ### Vector calculation -/

theorem calcProba_level (r : List Nat) (pk : Nat → Pack) (q : Nat → ℚ) (a b c : ℚ) (rest : Operands)
    (hrest : calcProbaRecursive rest = r.map fun i => some (q i))
    (hp : ∀ i ∈ r, (pk i).n1D = a ∧ (pk i).n2D = b ∧ (pk i).n3D = c ∧ (pk i).crl ≠ 0) :
    calcProbaRecursive (.level ((r.map pk).map Pack.cl) ((r.map pk).map Pack.clD) ((r.map pk).map Pack.crl)
        ((r.map pk).map Pack.n1) ((r.map pk).getLast?.map Pack.n1D) ((r.map pk).map Pack.n2)
        ((r.map pk).getLast?.map Pack.n2D) ((r.map pk).map Pack.n3) ((r.map pk).getLast?.map Pack.n3D) rest) =
      r.map fun i => some (max ((pk i).cl - (pk i).clD) 0 / (pk i).crl +
        ((pk i).n1 * a + (pk i).n2 * b + (pk i).n3 * c) / (pk i).crl * q i) := by
  rcases List.eq_nil_or_concat r with rfl | ⟨r', j, rfl⟩
  · rfl
  · obtain ⟨h1, h2, h3, _⟩ := hp j (by simp)
    have hl : ((r' ++ [j]).map pk).getLast? = some (pk j) := by simp
    simp only [List.concat_eq_append] at hrest hp ⊢
    rw [calcProbaRecursive, hrest, hl]
    simp only [Option.map_some, h1, h2, h3, List.map_map, List.zipWith_map, List.zipWith_self]
    apply List.map_congr_left
    intro i hi
    obtain ⟨_, _, _, h4⟩ := hp i hi
    simp [numDiv, numMul, numAdd, numDivN, h4]

section
variable {gs : List Ngram} {N : Nat} (ok : GramsOk gs N)

/-- The smoother built from rich n-grams. -/
theorem mknInit_rich (hrich : ¬ (vocab gs).Poor N) : ∃ m, mknInit gs N = .ok m ∧
    m.counts = gs.foldl mknCount {} ∧ m.lastOrder = N ∧
    (∀ o, Dict.get? m.disc o = if 2 ≤ o ∧ o ≤ N then some (discountsOf (vocab gs) o) else none) ∧
    m.lookup = Dict.ofPairs (((gs.foldl mknCount {}).lm.flatMap fun p => p.2).map fun g => (g.text, g)) := by
  obtain ⟨D, h1, h2⟩ := mknAllDiscounts_rich hrich
  unfold mknInit
  simp only [h1, bind, Except.bind, pure, Except.pure]
  exact ⟨_, rfl, rfl, rfl, h2, rfl⟩

variable {m : Mkn} (hcounts : m.counts = gs.foldl mknCount {})
  (hdisc : ∀ o, Dict.get? m.disc o = if 2 ≤ o ∧ o ≤ N then some (discountsOf (vocab gs) o) else none)
  (hlook : m.lookup = Dict.ofPairs (((gs.foldl mknCount {}).lm.flatMap fun p => p.2).map fun g => (g.text, g)))

include hdisc in
theorem discount_eq {o : Nat} (h1 : 2 ≤ o) (h2 : o ≤ N) (c : Nat) : m.discount o c = .ok ((vocab gs).D o c) := by
  have hd : Dict.get m.disc o = .ok (discountsOf (vocab gs) o) := by
    unfold Dict.get
    rw [hdisc, if_pos ⟨h1, h2⟩]
  unfold Mkn.discount
  rw [hd]
  match c with
  | 0 => rfl
  | 1 => rfl
  | 2 => rfl
  | c + 3 => rw [if_neg (by omega)]; simp [bind, Except.bind, pure, Except.pure, discountsOf, Spec.Vocab.D]

theorem withoutLastToken_eq {g : Ngram} (h : 1 < g.order) : g.withoutLastToken = .ok (join c!" " g.tokens.dropLast) := by
  unfold Ngram.withoutLastToken
  rw [if_pos h, sliceTo_neg_one]

theorem wcLastToken_eq {g : Ngram} (h : 1 < g.order) :
    g.wcLastToken = .ok (join c!" " (g.tokens.dropLast ++ [c!"•"])) := by
  unfold Ngram.wcLastToken
  rw [withoutLastToken_eq h, join_concat (dropLast_ne_nil h)]
  rfl

theorem continuousNgram_eq {g : Ngram} (h : 1 < g.order) :
    g.continuousNgram = .ok (join c!" " (c!"•" :: (g.tokens.dropLast ++ [c!"•"]))) := by
  unfold Ngram.continuousNgram
  rw [wcLastToken_eq h, join_cons (by simp)]
  rfl

theorem lowerOrder_eq {g : Ngram} {o : Nat} (h0 : 0 < o) (h : o < g.order) :
    g.lowerOrder o = .ok (join c!" " (g.tokens.drop (g.order - o))) := by
  unfold Ngram.lowerOrder
  rw [if_pos ⟨h0, h⟩]
  have : (g.order : Int) - o = ((g.order - o : Nat) : Int) := by omega
  rw [this, sliceFrom_nat]

include ok in
theorem prependWc_eq {g : Ngram} (hg : g ∈ gs) : g.prependWc = join c!" " (c!"•" :: g.tokens) := by
  have : g.tokens ≠ [] := by
    have := (ok.order g hg).1
    unfold Ngram.order at this
    exact List.length_pos_iff.mp this
  unfold Ngram.prependWc
  rw [join_cons this, ← ok.text g hg]
  rfl

/-- The operands expected at an order: at the top. -/
def packTopSpec (V : Spec.Vocab) (ts : List Str) : Pack where
  cl := V.count ts
  clD := V.D ts.length (V.count ts)
  crl := V.count ts.dropLast
  n1 := V.after ts.dropLast (· == 1)
  n1D := V.D1 ts.length
  n2 := V.after ts.dropLast (· == 2)
  n2D := V.D2 ts.length
  n3 := V.after ts.dropLast (fun c => c ≠ 1 ∧ c ≠ 2)
  n3D := V.D3 ts.length

/-- The operands expected at an order: below the top. -/
def packLowerSpec (V : Spec.Vocab) (ts : List Str) : Pack where
  cl := V.before ts
  clD := V.D (ts.length + 1) (V.before ts)
  crl := V.around ts.dropLast
  n1 := V.after ts.dropLast (· == 1)
  n1D := V.D1 ts.length
  n2 := V.after ts.dropLast (· == 2)
  n2D := V.D2 ts.length
  n3 := V.after ts.dropLast (fun c => c ≠ 1 ∧ c ≠ 2)
  n3D := V.D3 ts.length

include ok hcounts hdisc hlook

theorem pack_top {g : Ngram} (hg : g ∈ gs) (h : 1 < g.order) :
    m.pack g g.order = .ok (packTopSpec (vocab gs) g.tokens) := by
  have hN := (ok.order g hg).2
  have hctx : g.tokens.dropLast ≠ [] := dropLast_ne_nil h
  have hctxA : ∀ t ∈ g.tokens.dropLast, Alphabetic t := fun t ht => ok.alph g hg t (List.mem_of_mem_dropLast ht)
  obtain ⟨c, hc, hct, _⟩ := ok.closed g hg g.tokens.dropLast (List.dropLast_prefix _).isInfix hctx
  have hcl : Dict.get? m.lookup (join c!" " g.tokens.dropLast) = some c := by
    rw [hlook, ← hct, ← ok.text c hc]
    exact lookup_eq ok hc
  have htop : m.packTop g g.order = .ok (g.count, (vocab gs).D g.order g.count, c.count,
      join c!" " (g.tokens.dropLast ++ [c!"•"])) := by
    unfold Mkn.packTop
    rw [discount_eq hdisc (by omega) hN, withoutLastToken_eq h, wcLastToken_eq h]
    simp only [bind, Except.bind, Dict.get, hcl]
    rfl
  have hd : Dict.get m.disc g.order = .ok (discountsOf (vocab gs) g.order) := by
    unfold Dict.get
    rw [hdisc, if_pos ⟨by omega, hN⟩]
  unfold Mkn.pack
  rw [if_pos h, if_pos rfl, htop, hd]
  simp only [bind, Except.bind, pure, Except.pure, hcounts, wc1_eq ok hctx hctxA, wc2_eq ok hctx hctxA,
    wc3_eq ok hctx hctxA]
  unfold packTopSpec
  rw [vocab_count ok hg, ← hct, vocab_count ok hc]
  rfl

theorem pack_lower {g : Ngram} (hg : g ∈ gs) {o : Nat} (h0 : 1 < o) (h : o < g.order) :
    m.pack g o = .ok (packLowerSpec (vocab gs) (g.tokens.drop (g.order - o))) := by
  have hN := (ok.order g hg).2
  set ts := g.tokens.drop (g.order - o) with hts
  have hlen : ts.length = o := by
    rw [hts, List.length_drop]
    unfold Ngram.order at *
    omega
  have hne : ts ≠ [] := by
    rw [← List.length_pos_iff]; omega
  obtain ⟨l, hl, hlt, _⟩ := ok.closed g hg ts (List.drop_suffix _ _).isInfix hne
  have hlo : 1 < l.order := by unfold Ngram.order; rw [hlt]; omega
  have hA : ∀ t ∈ ts, Alphabetic t := by rw [← hlt]; exact ok.alph l hl
  have hctx : ts.dropLast ≠ [] := dropLast_ne_nil (by omega)
  have hctxA : ∀ t ∈ ts.dropLast, Alphabetic t := fun t ht => hA t (List.mem_of_mem_dropLast ht)
  have hll : Dict.get? m.lookup (join c!" " ts) = some l := by
    rw [hlook, ← hlt, ← ok.text l hl]
    exact lookup_eq ok hl
  have hlow : m.packLower g o = .ok ((vocab gs).before ts, (vocab gs).D (o + 1) ((vocab gs).before ts),
      (vocab gs).around ts.dropLast, join c!" " (ts.dropLast ++ [c!"•"])) := by
    unfold Mkn.packLower
    rw [lowerOrder_eq (by omega) h]
    simp only [bind, Except.bind, Dict.get, ← hts, hll]
    rw [prependWc_eq ok hl, hlt, hcounts, before_eq ok hne hA, discount_eq hdisc (by omega) (by omega),
      continuousNgram_eq hlo, wcLastToken_eq hlo, hlt]
    simp only [around_eq ok hctx hctxA]
    rfl
  have hd : Dict.get m.disc o = .ok (discountsOf (vocab gs) o) := by
    unfold Dict.get
    rw [hdisc, if_pos ⟨by omega, by omega⟩]
  unfold Mkn.pack
  rw [if_pos h0, if_neg (by omega), hlow, hd]
  simp only [bind, Except.bind, pure, Except.pure, hcounts, wc1_eq ok hctx hctxA, wc2_eq ok hctx hctxA,
    wc3_eq ok hctx hctxA]
  unfold packLowerSpec
  rw [hlen]
  rfl

omit hcounts hdisc hlook

theorem around_pos {g : Ngram} (hg : g ∈ gs) {o : Nat} (h0 : 1 < o) (h : o < g.order) :
    0 < (vocab gs).around (g.tokens.drop (g.order - o)).dropLast := by
  unfold Spec.Vocab.around
  rw [List.countP_pos_iff]
  have hlen : g.tokens.length = g.order := rfl
  obtain ⟨g', hg', ht, _⟩ := ok.closed g hg (g.tokens.drop (g.order - o - 1)) (List.drop_suffix _ _).isInfix (by
    rw [← List.length_pos_iff, List.length_drop]; omega)
  refine ⟨(g'.tokens, g'.count), List.mem_map.mpr ⟨g', hg', rfl⟩, ?_⟩
  simp only [decide_eq_true_eq, ht]
  rw [List.length_dropLast, List.length_drop, List.length_drop, List.drop_drop, List.dropLast_eq_take, List.length_drop]
  have : g.order - o - 1 + 1 = g.order - o := by omega
  rw [this]
  exact ⟨by omega, rfl⟩

theorem count_ctx_pos {g : Ngram} (hg : g ∈ gs) (h : 1 < g.order) : 0 < (vocab gs).count g.tokens.dropLast := by
  obtain ⟨c, hc, hct, _⟩ := ok.closed g hg g.tokens.dropLast (List.dropLast_prefix _).isInfix (dropLast_ne_nil h)
  rw [← hct, vocab_count ok hc]
  exact ok.count c hc

end

theorem pCont_lower (V : Spec.Vocab) {ts : List Str} (h : 1 < ts.length) : V.pCont ts =
    max ((V.before ts : ℚ) - V.D (ts.length + 1) (V.before ts)) 0 / V.around ts.dropLast +
      V.backoff ts.length ts.dropLast / V.around ts.dropLast * V.pCont ts.tail := by
  match ts, h with
  | w :: v :: ts, _ => rw [Spec.Vocab.pCont]; rfl

/-- The operands of one level. -/
def levelOps (ps : List Pack) (rest : Operands) : Operands :=
  .level (ps.map Pack.cl) (ps.map Pack.clD) (ps.map Pack.crl) (ps.map Pack.n1) (ps.getLast?.map Pack.n1D)
    (ps.map Pack.n2) (ps.getLast?.map Pack.n2D) (ps.map Pack.n3) (ps.getLast?.map Pack.n3D) rest

/-- The n-grams of an order. -/
def ordered (gs : List Ngram) (o : Nat) : List Ngram := gs.filter fun g => g.order = o

/-- The probability expected at a level of the recursion started at the order of `g`. -/
def levelProba (V : Spec.Vocab) (o : Nat) (g : Ngram) : ℚ :=
  if o = g.order then V.pTop g.tokens else V.pCont (g.tokens.drop (g.order - o))

theorem mem_gramAt {gs : List Ngram} {i : Nat} (h : i < gs.length) : gramAt gs i ∈ gs := by
  simp [gramAt, h]

section
variable {gs : List Ngram} {N : Nat} (ok : GramsOk gs N)
variable {m : Mkn} (hcounts : m.counts = gs.foldl mknCount {})
  (hdisc : ∀ o, Dict.get? m.disc o = if 2 ≤ o ∧ o ≤ N then some (discountsOf (vocab gs) o) else none)
  (hlook : m.lookup = Dict.ofPairs (((gs.foldl mknCount {}).lm.flatMap fun p => p.2).map fun g => (g.text, g)))

include hcounts in
theorem lm_getD (o : Nat) : (Dict.get? m.counts.lm o).getD [] = ordered gs o := by
  rw [hcounts, lm_fold, groupByOrder_getD]
  rfl

include hcounts in
theorem lm_isSome (o : Nat) : (Dict.get? m.counts.lm o).isSome ↔ ordered gs o ≠ [] := by
  rw [hcounts, lm_fold, Dict.get?_isSome_iff, groupByOrder_keys]
  have : Dict.keys (({} : MknCounts).lm) = [] := rfl
  rw [this]
  simp only [List.not_mem_nil, false_or]
  constructor
  · rintro ⟨g, hg, e⟩ h
    have : g ∈ ordered gs o := by simp [ordered, hg, e]
    rw [h] at this
    cases this
  · intro h
    obtain ⟨g, hg⟩ := List.exists_mem_of_ne_nil _ h
    simp only [ordered, List.mem_filter, decide_eq_true_eq] at hg
    exact ⟨g, hg⟩

include hcounts in
theorem lm_get {o : Nat} (h : ordered gs o ≠ []) : Dict.get m.counts.lm o = .ok (ordered gs o) := by
  have h1 := (lm_isSome hcounts o).mpr h
  have h2 := lm_getD hcounts o
  obtain ⟨l, hl⟩ := Option.isSome_iff_exists.mp h1
  rw [hl] at h2
  unfold Dict.get
  rw [hl, ← h2]
  rfl

include ok hcounts hdisc hlook in
theorem packs_eq {start o : Nat} (h0 : 1 < o) (h : o ≤ start) {r : List Nat}
    (hr : ∀ i ∈ r, i < (ordered gs start).length) :
    m.packs start o r = .ok (r.map fun i => if o = start then packTopSpec (vocab gs) (gramAt (ordered gs start) i).tokens
      else packLowerSpec (vocab gs) ((gramAt (ordered gs start) i).tokens.drop (start - o))) := by
  unfold Mkn.packs
  apply mapM_ok
  intro i hi
  have hlt := hr i hi
  have hne : ordered gs start ≠ [] := by
    intro e; rw [e] at hlt; cases hlt
  rw [lm_get hcounts hne]
  simp only [bind, Except.bind, index_gramAt hlt]
  have hm := mem_gramAt hlt
  simp only [ordered, List.mem_filter, decide_eq_true_eq] at hm
  change gramAt (ordered gs start) i ∈ gs ∧ (gramAt (ordered gs start) i).order = start at hm
  obtain ⟨hm1, hm2⟩ := hm
  split
  · rename_i e
    subst e
    have := pack_top ok hcounts hdisc hlook hm1 (by omega)
    rw [hm2] at this
    exact this
  · have := pack_lower ok hcounts hdisc hlook hm1 h0 (by omega)
    rw [hm2] at this
    exact this

include ok hcounts hdisc hlook in
theorem arrays_eq {uni : Dict Str Num} (huni : ∀ g ∈ gs, g.order = 1 → Dict.get? uni g.text = some (some ((vocab gs).pCont g.tokens)))
    {start : Nat} (hs : 1 < start) : ∀ (o : Nat), 1 ≤ o → o ≤ start → ∀ (r : List Nat),
    (∀ i ∈ r, i < (ordered gs start).length) →
    ∃ ops, m.arrays uni start o r = .ok ops ∧
      calcProbaRecursive ops = r.map fun i => some (levelProba (vocab gs) o (gramAt (ordered gs start) i))
  | 0, h, _, _, _ => by omega
  | 1, _, _, r, hr => by
    have : m.uniColumn uni start r =
        .ok (r.map fun i => some (levelProba (vocab gs) 1 (gramAt (ordered gs start) i))) := by
      unfold Mkn.uniColumn
      apply mapM_ok
      intro i hi
      have hlt := hr i hi
      have hne : ordered gs start ≠ [] := by
        intro e; rw [e] at hlt; cases hlt
      rw [lm_get hcounts hne]
      simp only [bind, Except.bind, index_gramAt hlt]
      have hm := mem_gramAt hlt
      simp only [ordered, List.mem_filter, decide_eq_true_eq] at hm
      change gramAt (ordered gs start) i ∈ gs ∧ (gramAt (ordered gs start) i).order = start at hm
      obtain ⟨hm1, hm2⟩ := hm
      generalize gramAt (ordered gs start) i = g at hm1 hm2
      have hlen : g.tokens.length = start := hm2
      have hne' : g.tokens ≠ [] := by rw [← List.length_pos_iff]; omega
      have hdrop : g.tokens.drop (start - 1) = [g.tokens.getLast hne'] := by
        rw [← hlen]
        exact List.drop_length_sub_one hne'
      have hlast : g.lastToken = .ok (g.tokens.getLast hne') := by
        unfold Ngram.lastToken
        have := index_neg g.tokens 1 (by omega)
        rw [show (-((1 : Nat) : Int)) = -1 from rfl] at this
        rw [this, dif_pos (by omega), List.getLast_eq_getElem]
      rw [hlast]
      obtain ⟨u, hu, hut, _⟩ := ok.closed g hm1 [g.tokens.getLast hne'] (by
        rw [← hdrop]; exact (List.drop_suffix _ _).isInfix) (by simp)
      have huo : u.order = 1 := by unfold Ngram.order; rw [hut]; rfl
      have hx : u.text = g.tokens.getLast hne' := by rw [ok.text u hu, hut]; rfl
      have := huni u hu huo
      rw [hx, hut] at this
      simp only [Dict.get, this, levelProba, hm2]
      rw [if_neg (by omega), hdrop]
    refine ⟨.uni _, ?_, rfl⟩
    unfold Mkn.arrays
    rw [if_pos hs, this]
    rfl
  | o + 2, _, ho, r, hr => by
    obtain ⟨rest, h1, h2⟩ := arrays_eq huni hs (o + 1) (by omega) (by omega) r hr
    have hp := packs_eq ok hcounts hdisc hlook (o := o + 2) (by omega) ho hr
    have hgram : ∀ i ∈ r, gramAt (ordered gs start) i ∈ gs ∧ (gramAt (ordered gs start) i).order = start := by
      intro i hi
      have hm := mem_gramAt (hr i hi)
      simp only [ordered, List.mem_filter, decide_eq_true_eq] at hm
      exact hm
    have ha : ∃ ops, m.arrays uni start (o + 2) r = .ok ops ∧ ops = levelOps (r.map fun i =>
        if o + 2 = start then packTopSpec (vocab gs) (gramAt (ordered gs start) i).tokens
        else packLowerSpec (vocab gs) ((gramAt (ordered gs start) i).tokens.drop (start - (o + 2)))) rest := by
      refine ⟨_, ?_, rfl⟩
      unfold Mkn.arrays
      rw [if_pos hs, hp, h1]
      rfl
    obtain ⟨ops, ha, rfl⟩ := ha
    refine ⟨_, ha, ?_⟩
    unfold levelOps
    rw [calcProba_level r _ (fun i => levelProba (vocab gs) (o + 1) (gramAt (ordered gs start) i))
      ((vocab gs).D1 (o + 2)) ((vocab gs).D2 (o + 2)) ((vocab gs).D3 (o + 2)) rest h2]
    · apply List.map_congr_left
      intro i hi
      obtain ⟨g1, g2⟩ := hgram i hi
      generalize gramAt (ordered gs start) i = g at g1 g2
      have hlen : g.tokens.length = start := g2
      congr 1
      by_cases e : o + 2 = start
      · have el : levelProba (vocab gs) (o + 1) g = (vocab gs).pCont g.tokens.tail := by
          unfold levelProba
          rw [if_neg (by omega), g2, ← List.drop_one]
          congr 2
          omega
        simp only [e, if_true]
        rw [el]
        unfold levelProba
        rw [if_pos g2.symm]
        unfold Spec.Vocab.pTop packTopSpec Spec.Vocab.backoff
        rw [hlen]
      · have el : levelProba (vocab gs) (o + 1) g = (vocab gs).pCont (g.tokens.drop (start - (o + 2))).tail := by
          unfold levelProba
          rw [if_neg (by omega), g2, ← List.drop_one, List.drop_drop]
          congr 2
          omega
        simp only [e, if_false]
        rw [el]
        unfold levelProba
        rw [if_neg (by omega), g2]
        have hl2 : (g.tokens.drop (start - (o + 2))).length = o + 2 := by rw [List.length_drop]; omega
        rw [pCont_lower _ (ts := g.tokens.drop (start - (o + 2))) (by omega)]
        unfold packLowerSpec Spec.Vocab.backoff
        rw [hl2]
    · intro i hi
      obtain ⟨g1, g2⟩ := hgram i hi
      generalize gramAt (ordered gs start) i = g at g1 g2
      have hlen : g.tokens.length = start := g2
      by_cases e : o + 2 = start
      · simp only [e, if_true, packTopSpec, hlen]
        refine ⟨trivial, trivial, trivial, ?_⟩
        have := count_ctx_pos ok g1 (by omega)
        exact_mod_cast Nat.ne_of_gt this
      · have hl2 : (g.tokens.drop (start - (o + 2))).length = o + 2 := by rw [List.length_drop]; omega
        simp only [e, if_false, packLowerSpec, hl2]
        refine ⟨trivial, trivial, trivial, ?_⟩
        have := around_pos ok g1 (o := o + 2) (by omega) (by omega)
        rw [g2] at this
        exact_mod_cast Nat.ne_of_gt this

end

theorem types_eq (gs : List Ngram) (o : Nat) : (vocab gs).types o = (ordered gs o).length := by
  unfold Spec.Vocab.types vocab ordered
  rw [List.countP_map, ← List.countP_eq_length_filter]
  rfl

/-- The unigram lookup. -/
def uniDict (gs : List Ngram) : Dict Str Num :=
  Dict.ofPairs ((ordered gs 1).map fun g => (g.text, some ((vocab gs).pCont g.tokens)))

section
variable {gs : List Ngram} {N : Nat} (ok : GramsOk gs N)

theorem mem_ordered {o : Nat} {g : Ngram} : g ∈ ordered gs o ↔ g ∈ gs ∧ g.order = o := by
  simp [ordered]

include ok in
theorem uniDict_get {g : Ngram} (hg : g ∈ gs) (h : g.order = 1) :
    Dict.get? (uniDict gs) g.text = some (some ((vocab gs).pCont g.tokens)) := by
  unfold uniDict
  rw [Dict.get?_ofPairs]
  have hk : g.text ∈ Dict.keys (((ordered gs 1).map fun g => (g.text, (some ((vocab gs).pCont g.tokens) : Num))).reverse) := by
    unfold Dict.keys
    rw [List.map_reverse, List.mem_reverse, List.map_map]
    exact List.mem_map.mpr ⟨g, mem_ordered.mpr ⟨hg, h⟩, rfl⟩
  rw [← Dict.get?_isSome_iff] at hk
  obtain ⟨v, hv⟩ := Option.isSome_iff_exists.mp hk
  rw [hv]
  have := Dict.mem_of_get? hv
  simp only [List.mem_reverse, List.mem_map] at this
  obtain ⟨g', h1, h2⟩ := this
  have e1 := congrArg Prod.fst h2
  have e2 := congrArg Prod.snd h2
  simp only at e1 e2
  have := List.inj_on_of_nodup_map ok.nodup (mem_ordered.mp h1).1 hg e1
  rw [← e2, this]

variable {m : Mkn} (hcounts : m.counts = gs.foldl mknCount {})

include ok hcounts in
theorem calcUnigramProbas_spec (R : Rounding) (nb : Nat) (hb : 0 < nb) (hk : nb ≤ 2 ^ 53) (hlen : gs.length ≤ 2 ^ 53)
    (h2 : ordered gs 2 ≠ []) : ∃ ret : List Move → Bool, (∀ s, ∃ s', ret (s ++ s') = true) ∧
    ∀ s, m.calcUnigramProbas R nb s = .ok (if ret s then
      some ((ordered gs 1).map (fun g => some ((vocab gs).pCont g.tokens)), uniDict gs) else none) := by
  have hl1 : (ordered gs 1).length ≤ 2 ^ 53 := le_trans (List.length_filter_le _ _) hlen
  have hflat := processRanges_flatten R (ordered gs 1).length nb hb hl1 hk
  have huc : ∀ i, i < (ordered gs 1).length → gramAt (ordered gs 1) i ∈ gs ∧ (gramAt (ordered gs 1) i).order = 1 :=
    fun i hi => mem_ordered.mp (mem_gramAt hi)
  have hsl : (processRanges R (ordered gs 1).length nb).mapM m.uniCounts =
      .ok ((processRanges R (ordered gs 1).length nb).map fun r => r.map fun i =>
        (vocab gs).before (gramAt (ordered gs 1) i).tokens) := by
    apply slices_eq hflat
    intro r _ hi
    unfold Mkn.uniCounts
    apply mapM_ok
    intro i h
    have hlt := hi i h
    have hne : ordered gs 1 ≠ [] := by
      intro e; rw [e] at hlt; cases hlt
    obtain ⟨g1, g2⟩ := huc i hlt
    rw [lm_get hcounts hne]
    simp only [bind, Except.bind, index_gramAt hlt, pure, Except.pure]
    rw [prependWc_eq ok g1, hcounts, before_eq ok ?_ (ok.alph _ g1)]
    rw [← List.length_pos_iff]
    unfold Ngram.order at g2
    omega
  have hproc : ∀ i, i < (ordered gs 1).length → numDiv ((vocab gs).before (gramAt (ordered gs 1) i).tokens : ℕ)
      ((ordered gs 2).length : ℕ) = some ((vocab gs).pCont (gramAt (ordered gs 1) i).tokens) := by
    intro i hi
    obtain ⟨g1, g2⟩ := huc i hi
    generalize gramAt (ordered gs 1) i = g at g1 g2
    unfold Ngram.order at g2
    have hne0 : (((ordered gs 2).length : ℕ) : ℚ) ≠ 0 := by
      have := List.length_pos_iff.mpr h2
      exact_mod_cast Nat.ne_of_gt this
    obtain ⟨w, hw⟩ := List.length_eq_one_iff.mp g2
    rw [hw, numDiv, if_neg hne0, Spec.Vocab.pCont, types_eq]
  obtain ⟨ret, e1, e2⟩ := calcNgramsMultithread_spec R
    ((processRanges R (ordered gs 1).length nb).map fun r => r.map fun i =>
      (vocab gs).before (gramAt (ordered gs 1) i).tokens)
    (fun cs => cs.map fun (c : Nat) => numDiv c ((ordered gs 2).length : ℕ)) nb hb (by
      simpa using processRanges_ne_nil R (ordered gs 1).length hb)
  have hfm : ((processRanges R (ordered gs 1).length nb).map fun r => r.map fun i =>
      (vocab gs).before (gramAt (ordered gs 1) i).tokens).flatMap
      (fun cs => cs.map fun (c : Nat) => numDiv c ((ordered gs 2).length : ℕ)) =
      (ordered gs 1).map (fun g => some ((vocab gs).pCont g.tokens)) := by
    rw [List.flatMap_map, ← flatMap_ranges hflat (fun g => (some ((vocab gs).pCont g.tokens) : Num))]
    apply List.flatMap_congr
    intro r hr
    rw [List.map_map]
    apply List.map_congr_left
    intro i hi
    exact hproc i (mem_range_of_flatten hflat hr hi)
  have hd : (List.range (ordered gs 1).length).foldlM
      (m.uniEntry ((ordered gs 1).map fun g => some ((vocab gs).pCont g.tokens))) [] = .ok (uniDict gs) := by
    rw [foldlM_ok _ (fun d i => Dict.set d (gramAt (ordered gs 1) i).text
      (some ((vocab gs).pCont (gramAt (ordered gs 1) i).tokens)))]
    · unfold uniDict Dict.ofPairs
      rw [← map_gramAt (ordered gs 1) (fun g => (g.text, (some ((vocab gs).pCont g.tokens) : Num))), List.foldl_map]
    · intro d i hi
      have hlt := List.mem_range.mp hi
      have hne : ordered gs 1 ≠ [] := by
        intro e; rw [e] at hlt; cases hlt
      unfold Mkn.uniEntry
      rw [lm_get hcounts hne]
      have : index ((ordered gs 1).map fun g => (some ((vocab gs).pCont g.tokens) : Num)) (i : Int) =
          .ok (some ((vocab gs).pCont (gramAt (ordered gs 1) i).tokens)) := by
        rw [index_nat]
        simp [gramAt, hlt]
      simp only [bind, Except.bind, index_gramAt hlt, this, pure, Except.pure]
  refine ⟨ret, e2, ?_⟩
  intro s
  unfold Mkn.calcUnigramProbas
  simp only [lm_getD hcounts 1, lm_getD hcounts 2, hsl, bind, Except.bind, e1, hfm]
  cases ret s with
  | false => rfl
  | true => simp only [if_true, hd]; rfl

variable
  (hdisc : ∀ o, Dict.get? m.disc o = if 2 ≤ o ∧ o ≤ N then some (discountsOf (vocab gs) o) else none)
  (hlook : m.lookup = Dict.ofPairs (((gs.foldl mknCount {}).lm.flatMap fun p => p.2).map fun g => (g.text, g)))

include ok hcounts hdisc hlook in
theorem calcHigherOrderProbas_spec (R : Rounding) (nb : Nat) (hb : 0 < nb) (hk : nb ≤ 2 ^ 53)
    (hlen : gs.length ≤ 2 ^ 53) (o : Nat) (ho : 1 < o) :
    ∃ ret : List Move → Bool, (∀ s, ∃ s', ret (s ++ s') = true) ∧
    ∀ s, m.calcHigherOrderProbas R nb s (uniDict gs) o = .ok (if ret s then
      some ((ordered gs o).map (fun g => some ((vocab gs).pTop g.tokens))) else none) := by
  have hl1 : (ordered gs o).length ≤ 2 ^ 53 := le_trans (List.length_filter_le _ _) hlen
  have hflat := processRanges_flatten R (ordered gs o).length nb hb hl1 hk
  have harr := arrays_eq ok hcounts hdisc hlook (uni := uniDict gs) (fun g hg h => uniDict_get ok hg h) ho o (by omega)
    (Nat.le_refl _)
  have hex : ∀ r : List Nat, ∃ ops, (∀ i ∈ r, i < (ordered gs o).length) → m.arrays (uniDict gs) o o r = .ok ops ∧
      calcProbaRecursive ops = r.map fun i => some (levelProba (vocab gs) o (gramAt (ordered gs o) i)) := by
    intro r
    by_cases h : ∀ i ∈ r, i < (ordered gs o).length
    · obtain ⟨ops, ho⟩ := harr r h
      exact ⟨ops, fun _ => ho⟩
    · exact ⟨.uni [], fun h' => absurd h' h⟩
  choose ops hops using hex
  have hsl : (processRanges R (ordered gs o).length nb).mapM (m.arrays (uniDict gs) o o) =
      .ok ((processRanges R (ordered gs o).length nb).map ops) := by
    apply slices_eq hflat
    intro r _ hi
    exact (hops r hi).1
  obtain ⟨ret, e1, e2⟩ := calcNgramsMultithread_spec R ((processRanges R (ordered gs o).length nb).map ops)
    calcProbaRecursive nb hb (by simpa using processRanges_ne_nil R (ordered gs o).length hb)
  have hfm : ((processRanges R (ordered gs o).length nb).map ops).flatMap calcProbaRecursive =
      (ordered gs o).map (fun g => some ((vocab gs).pTop g.tokens)) := by
    rw [List.flatMap_map, ← flatMap_ranges hflat (fun g => (some ((vocab gs).pTop g.tokens) : Num))]
    apply List.flatMap_congr
    intro r hr
    have hi : ∀ i ∈ r, i < (ordered gs o).length := fun i hi => mem_range_of_flatten hflat hr hi
    rw [(hops r hi).2]
    apply List.map_congr_left
    intro i h
    have := (mem_ordered.mp (mem_gramAt (hi i h))).2
    unfold levelProba
    rw [if_pos this.symm]
  refine ⟨ret, e2, ?_⟩
  intro s
  unfold Mkn.calcHigherOrderProbas
  rw [if_pos ho, lm_getD hcounts o, hsl]
  simp only [bind, Except.bind, e1, hfm]

include ok in
theorem mknSmooth_spec (R : Rounding) (nb : Nat) (hb : 0 < nb) (hk : nb ≤ 2 ^ 53)
    (hlen : gs.length ≤ 2 ^ 53) (hN : 2 ≤ N) (hrich : ¬ (vocab gs).Poor N) :
    Spec.Returns (mknSmooth R gs N nb) fun out => ∀ o, (Dict.get? out o).getD [] =
      (ordered gs o).map fun g => { g with proba := some (some
        (if o = 1 then (vocab gs).pCont g.tokens else (vocab gs).pTop g.tokens)) } := by
  obtain ⟨m, hm, hcounts, hlast, hdisc, hlook⟩ := mknInit_rich (gs := gs) (N := N) hrich
  have hne : ∀ o, 2 ≤ o → o ≤ N → ordered gs o ≠ [] := by
    intro o h1 h2 e
    apply hrich
    refine ⟨o, h1, h2, 1, by omega, by omega, ?_⟩
    intro x hx hxx
    obtain ⟨g, hg, rfl⟩ := List.mem_map.mp hx
    have : g ∈ ordered gs o := mem_ordered.mpr ⟨hg, hxx.1⟩
    rw [e] at this
    cases this
  obtain ⟨ret1, hret1, h1⟩ := calcUnigramProbas_spec ok hcounts R nb hb hk hlen (hne 2 (by omega) hN)
  have hspec := fun o (ho : 1 < o) => calcHigherOrderProbas_spec ok hcounts hdisc hlook R nb hb hk hlen o ho
  choose ret hret hstep using hspec
  obtain ⟨d1, a1, a2, a3⟩ := assignProbas_map 1 m.counts.lm (ordered gs 1)
    (fun g => some ((vocab gs).pCont g.tokens)) (lm_getD hcounts 1)
  let ret' : Nat → List Move → Bool := fun o s => if h : 1 < o then ret o h s else ret1 s
  have hret' : ∀ o s, ∃ s', ret' o (s ++ s') = true := by
    intro o s
    by_cases h : 1 < o
    · simpa only [ret', dif_pos h] using hret o h s
    · simpa only [ret', dif_neg h] using hret1 s
  have hos : ∀ o, o ∈ ordersFrom2 N ↔ 2 ≤ o ∧ o ≤ N := mem_ordersFrom2 N
  obtain ⟨D, hD1, hD2⟩ := forOrders_spec (fun o g => some ((vocab gs).pTop g.tokens)) (ordered gs)
    (fun sched d o => do
      let r ← m.calcHigherOrderProbas R nb (sched o) (uniDict gs) o
      assignResult d o r) ret' (ordersFrom2 N)
    (by
      unfold ordersFrom2
      exact List.nodup_range.map (fun a b h => by simpa using h))
    (by
      intro o ho d hd _
      rw [hos] at ho
      obtain ⟨d', b1, b2, b3⟩ := assignProbas_map o d (ordered gs o) (fun g => some ((vocab gs).pTop g.tokens)) hd
      refine ⟨d', ?_, b2, b3⟩
      intro sched
      have hr : ret' o (sched o) = ret o (by omega) (sched o) := by simp only [ret', dif_pos (show 1 < o by omega)]
      rw [hstep o (by omega), hr]
      simp only [bind, Except.bind]
      cases ret o (by omega) (sched o) with
      | false => rfl
      | true =>
        simp only [if_true, assignResult, b1, bind, Except.bind, pure, Except.pure])
    d1 (by
      intro o ho
      rw [hos] at ho
      rw [a2 o (by omega)]
      exact lm_getD hcounts o)
    (by
      intro o ho
      rw [hos] at ho
      rw [a2 o (by omega)]
      exact lm_isSome hcounts o)
  refine returns_of_ret D ret' hret' (1 :: ordersFrom2 N) ?_ ?_
  · intro sched
    unfold mknSmooth
    rw [hm]
    simp only [bind, Except.bind]
    unfold Mkn.call
    rw [h1 (sched 1), hlast]
    have hr : ret' 1 (sched 1) = ret1 (sched 1) := by simp only [ret', dif_neg (show ¬ (1 < 1) by omega)]
    rw [List.all_cons, hr]
    simp only [bind, Except.bind]
    cases ret1 (sched 1) with
    | false => rfl
    | true =>
      simp only [if_true, a1, Bool.true_and]
      exact hD1 sched
  · intro o
    rw [hD2 o]
    by_cases h : o ∈ ordersFrom2 N
    · rw [if_pos h]
      have := (hos o).mp h
      simp only [if_neg (show ¬ o = 1 by omega)]
      rfl
    · rw [if_neg h]
      by_cases e : o = 1
      · subst e
        rw [a3]
        rfl
      · rw [a2 o e, lm_getD hcounts o]
        have : ordered gs o = [] := by
          rw [List.eq_nil_iff_forall_not_mem]
          intro g hg
          obtain ⟨g1, g2⟩ := mem_ordered.mp hg
          have := ok.order g g1
          rw [hos] at h
          omega
        rw [this]
        rfl

end

end Model
