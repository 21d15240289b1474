import Verif.Lemmas.Stages

/-! # The stages of the tokenizer: comparison symbols, splitting -/

namespace Model
open Py

section
variable {D : Char → Bool} {dict : Dict Str Str} {us0 : List U}

/-- No two stars next to each other. -/
def NoStars (us : List U) : Prop := ¬ [U.ch '*', U.ch '*'] <:+: us

/-- The tracks that are kept up to the restoration of symbols. -/
def Fits (db : CharDB) (us0 : List U) (T : Track) : Prop :=
  LB T ∨ ((T = trSolids ∨ T = trStars) ∧ NoFeet db us0 ∧ NoStars us0)

theorem Fits.cases {db : CharDB} {T : Track} (h : Fits db us0 T) :
    T = trLetters ∨ T = trBlocks ∨ T = trSolids ∨ T = trStars := by
  rcases h with (h | h) | ⟨h | h, -⟩ <;> simp [h]

variable (hD : ∀ c, D c = true → isDelim c = true) (hD' : D '_' = true)
include hD hD'

/-! ### Feet and inches -/

theorem Exact.feetStage (db : CharDB) {x : Str} (hx : Exact D dict us0 x) :
    Reach D dict us0 (Fits db us0) (subAll db feetRules x) := by
  by_cases hf : NoFeet db us0
  · exact (Exact.feet hD db hf feetRules (fun _ h => h) x hx).reach _
  · refine (Reach.feet hD hD' db feetRules (fun _ h => h) x (hx.reach _)).mono ?_
    rintro T (h | ⟨-, h, -⟩)
    · exact h
    · exact absurd h hf

/-! ### `>=`, `<=`, `=>`, `=<` -/

omit hD hD' in
theorem cmp_mid {db : CharDB} {T : Track} (hT : Fits db us0 T) {a b : Char} (ha : a ∈ ['>', '<', '=']) (hb : b ∈ ['>', '<', '='])
    {v : Str} (hv : ∀ c ∈ v, isSpace c = true) :
    LeB T (U.ch a :: (v.map U.ch ++ [.ch b])) [.ch a, .ch b] := by
  have hg : ∀ x y, T.g x (v.map U.ch ++ [.ch b]) y = if T.p (.ch b) then [(.ch b, T.e x (v.map U.ch), y)] else [] := by
    intro x y
    rw [Track.g_append, g_ws hv]
    simp only [Track.g, Track.s, List.nil_append]
  have hend : ∀ x, T.e x (v.map U.ch ++ [.ch b]) = T.q (.ch b) := by
    intro x
    rw [Track.e_append]
    rfl
  have hs : ∀ y, T.q (.ch b) = true → T.s (v.map U.ch ++ [.ch b]) y = true := by
    intro y hq
    cases v with
    | nil => exact hq
    | cons c v => exact (T.sp c (hv c (by simp))).2
  have hcase : (T.p (.ch a) = false ∧ T.p (.ch b) = false) ∨ (∀ u, T.q u = true) := by
    rcases hT.cases with rfl | rfl | rfl | rfl
    · have : ∀ c ∈ ['>', '<', '='], trLetters.p (.ch c) = false := by decide
      exact .inl ⟨this a ha, this b hb⟩
    · exact .inl ⟨rfl, rfl⟩
    · exact .inr fun _ => rfl
    · have : ∀ c ∈ ['>', '<', '='], trStars.p (.ch c) = false := by decide
      exact .inl ⟨this a ha, this b hb⟩
  intro x x' y y' hx hy
  refine ⟨?_, ?_, ?_⟩
  · rw [Track.g, hg]
    rcases hcase with ⟨h1, h2⟩ | hq
    · simp only [Track.g, h1, h2, Bool.false_eq_true, if_false]
      exact .nil
    · have hqe : ∀ (l : List U), T.e true l = true := by
        intro l
        induction l with
        | nil => rfl
        | cons u l ih => simp only [Track.e, hq, ih]
      simp only [Track.g, Track.s, hq, hs _ (hq _), hqe]
      by_cases h1 : T.p (.ch a) = true <;> by_cases h2 : T.p (.ch b) = true <;> simp [h1, h2, Kept, hx, hy]
      all_goals tauto
  · exact id
  · show T.e _ (v.map U.ch ++ [.ch b]) = true → _
    rw [hend]
    exact id

/-- The four rules for comparison symbols (tokenizer.py:73-76), as units. -/
def cmpRules : List (Re × Char × Char × Str) := [
  (rei% r"\s?>\s?=\s?", '>', '=', c!"_NSGE_"),
  (rei% r"\s?<\s?=\s?", '<', '=', c!"_NSLE_"),
  (rei% r"\s?=\s?>\s?", '=', '>', c!"_RNSGE_"),
  (rei% r"\s?=\s?<\s?", '=', '<', c!"_RNSLE_")]

omit hD hD' in
theorem noSplit_eq : tokNoSplit = dotRules.map (fun r => (r.1, tplOf r.2)) ++ (feetRules ++
    cmpRules.map fun r => (r.1, tplOf [.un (.bk r.2.2.2)])) := by decide +kernel

/-- What is checked of a rule for a comparison symbol. -/
def cmpOk (r : Re × Char × Char × Str) : Bool :=
  safeRe r.1 && r.1.shape == some [.ws, .lit r.2.1, .ws, .lit r.2.2.1, .ws] && ['>', '<', '='].contains r.2.1 &&
    ['>', '<', '='].contains r.2.2.1 && symVal.lookup r.2.2.2 == some [' ', r.2.1, r.2.2.1, ' '] &&
    (symVal.map Prod.fst).contains r.2.2.2

theorem Reach.cmp (db : CharDB) {r : Re × Char × Char × Str} (h : cmpOk r = true) {x : Str}
    (hx : Reach D dict us0 (Fits db us0) x) :
    Reach D dict us0 (Fits db us0) (r.1.sub db (tplOf [.un (.bk r.2.2.2)]) x) := by
  simp only [cmpOk, Bool.and_eq_true, beq_iff_eq, List.contains_iff_mem] at h
  obtain ⟨⟨⟨⟨⟨h1, h2⟩, ha⟩, hb⟩, h3⟩, h4⟩ := h
  refine Reach.sub hD (safeRe_safe db h1) ?_ hx
  intro us _ _ w pre t _ ht he
  refine ⟨[.bk r.2.2.2], ⟨?_, ?_⟩, ?_⟩
  · intro u hu
    rw [List.mem_singleton] at hu
    subst hu
    exact sym_good hD' dict h4
  · intro T hT
    have hp := Re.shape_run r.1 _ h2 _ t w ht he t.caps fun _ _ => rfl
    cases hp with
    | @ws v1 _ _ hv1 hp => cases hp with
      | lit hp => cases hp with
        | @ws v2 _ _ hv2 hp => cases hp with
          | lit hp => cases hp with
            | @ws v3 _ _ hv3 hp => cases hp with
              | nil =>
                have hsem : semAll dict [.bk r.2.2.2] = [.ch ' '] ++ ([.ch r.2.1, .ch r.2.2.1] ++ [.ch ' ']) := by
                  simp only [semAll_cons, semAll_nil, sem, h3, List.append_nil]
                  rfl
                rw [hsem]
                have e : (v1 ++ r.2.1 :: (v2 ++ r.2.2.1 :: (v3 ++ []))).map U.ch =
                    v1.map U.ch ++ ((U.ch r.2.1 :: (v2.map U.ch ++ [.ch r.2.2.1])) ++ v3.map U.ch) := by simp
                rw [e]
                exact (LeB.ws hv1 (by decide)).append ((cmp_mid hT ha hb hv2).append (LeB.ws hv3 (by decide)))
  · exact expand_tplOf w t.caps [.un (.bk r.2.2.2)] (by simp)

theorem Reach.cmps (db : CharDB) {x : Str} (hx : Reach D dict us0 (Fits db us0) x) :
    Reach D dict us0 (Fits db us0) (subAll db (cmpRules.map fun r => (r.1, tplOf [.un (.bk r.2.2.2)])) x) := by
  have key : ∀ rules : List (Re × Char × Char × Str), (∀ r ∈ rules, cmpOk r = true) → ∀ x,
      Reach D dict us0 (Fits db us0) x →
      Reach D dict us0 (Fits db us0) (subAll db (rules.map fun r => (r.1, tplOf [.un (.bk r.2.2.2)])) x) := by
    intro rules
    induction rules with
    | nil => intro _ x hx; exact hx
    | cons r rules ih =>
      intro h x hx
      rw [List.map_cons, subAll_cons]
      exact ih (fun r hr => h r (by simp [hr])) _ (Reach.cmp hD hD' db (h r (by simp)) hx)
  exact key cmpRules (by decide +kernel) x hx

/-- All rules of `__re_no_split`. -/
theorem Exact.noSplit (db : CharDB) {x : Str} (hx : Exact D dict us0 x) :
    Reach D dict us0 (Fits db us0) (subAll db tokNoSplit x) := by
  rw [noSplit_eq, subAll_append, subAll_append]
  exact Reach.cmps hD hD' db (Exact.feetStage hD hD' db (Exact.dots hD hD' db hx))

/-! ### Rules that put blanks around the match -/

omit hD' in
/-- The replacement is the match between blanks. -/
theorem Reach.around {F : Track → Prop} (db : CharDB) {r : Re} (h : safeRe r = true) {a b : Str}
    (ha : ∀ c ∈ a, c = ' ') (hb : ∀ c ∈ b, c = ' ') (hal : a.length ≤ 1) (hbl : b.length ≤ 1) {x : Str}
    (hx : Reach D dict us0 F x) :
    Reach D dict us0 F (r.sub db (a.map Tp.lit ++ [.ref 0] ++ b.map Tp.lit) x) := by
  have hsafe := safeRe_safe db h
  have hsp : ∀ {T : Track} (a : Str), (∀ c ∈ a, c = ' ') → a.length ≤ 1 → LeB T [] (a.map U.ch) := by
    intro T a ha hal
    match a, hal with
    | [], _ => exact .nil
    | [c], _ =>
      rw [ha c (by simp)]
      exact LeB.ws (v := []) (by simp) (by decide)
  have hDsp : ∀ a : Str, (∀ c ∈ a, c = ' ') → ∀ c ∈ a, D c = false := by
    intro a ha c hc
    rw [ha c hc]
    exact not_D hD (by decide)
  refine Reach.sub hD hsafe ?_ hx
  intro us _ _ w pre t _ ht he
  refine ⟨a.map U.ch ++ (w.map U.ch ++ b.map U.ch), ⟨?_, ?_⟩, ?_⟩
  · intro u hu
    rw [List.mem_append, List.mem_append, List.mem_map, List.mem_map, List.mem_map] at hu
    rcases hu with ⟨c, hc, rfl⟩ | ⟨c, hc, rfl⟩ | ⟨c, hc, rfl⟩
    · exact hDsp a ha c hc
    · exact not_D hD ((hsafe _ _ _ ht he).1 c hc)
    · exact hDsp b hb c hc
  · intro T _
    simp only [semAll_append, semAll_ch]
    have := (hsp (T := T) a ha hal).append ((LeB.refl (w.map U.ch)).append (hsp (T := T) b hb hbl))
    simpa using this
  · rw [expand_append, expand_append, expand_lits, expand_lits, encode_append, encode_append, encode_ch, encode_ch,
      encode_ch]
    simp [expand]

omit hD' in
theorem Reach.alwaysSplit {F : Track → Prop} (db : CharDB) {x : Str} (hx : Reach D dict us0 F x) :
    Reach D dict us0 F (tokAlwaysSplit.1.sub db tokAlwaysSplit.2 x) := by
  have := Reach.around hD db (r := tokAlwaysSplit.1) (by decide +kernel) (a := [' ']) (b := [' ']) (by simp) (by simp)
    (by simp) (by simp) hx
  exact this

theorem Reach.splitDotRules {F : Track → Prop} (db : CharDB) {x : Str} (hx : Reach D dict us0 F x) :
    Reach D dict us0 F (subAll db tokSplitDot x) := by
  have e : tokSplitDot = [(re% r"([a-z]+)(\.)([A-Z\'])", tpl% r"\g<1> \g<2> \g<3>"), (re% r"\.$", tpl% r" \g<0>")] := rfl
  rw [e, subAll_cons, subAll_cons]
  have h1 := Reach.rules hD hD' db [(re% r"([a-z]+)(\.)([A-Z\'])", tpl% r"\g<1> \g<2> \g<3>")] (by decide +kernel) hx
  exact Reach.around hD db (r := re% r"\.$") (by decide +kernel) (a := [' ']) (b := []) (by simp) (by simp)
    (by simp) (by simp) h1

/-! ### Words -/

omit hD' in
theorem Reach.splitJoin {F : Track → Prop} {x : Str} (hx : Reach D dict us0 F x) :
    Reach D dict us0 F (join [' '] (splitWs x)) := by
  obtain ⟨us, rfl, h2, h3⟩ := hx
  refine ⟨joinU (splitU us), ?_, ?_, ?_⟩
  · rw [splitWs_encode fun u hu => (h2 u hu).tight hD, encode_joinU]
  · intro u hu
    rcases mem_joinU hu with rfl | ⟨w, hw, hu⟩
    · exact not_D hD (by decide)
    · exact h2 u (mem_splitU hw hu)
  · intro T hT
    have := h3 T hT
    unfold LeT at this ⊢
    rw [g_joinU, ← g_splitU]
    exact this

/-- The words of the tokenizer after the treatment of their dots. -/
theorem Reach.words {F : Track → Prop} (db : CharDB) {x : Str} (hx : Reach D dict us0 F x) :
    Reach D dict us0 F (join [' '] ((splitWs x).flatMap (splitDots db))) := by
  obtain ⟨us, rfl, h2, h3⟩ := hx
  have hword : ∀ w : List U, (∀ u ∈ w, u.Good D dict) → ∃ ws : List (List U), splitDots db (encode w) = ws.map encode ∧
      (∀ v ∈ ws, ∀ u ∈ v, u.Good D dict) ∧
      ∀ T, F T → List.Forall₂ Kept (T.g true (semAll dict w) true) (ws.flatMap fun v => T.g true (semAll dict v) true) := by
    intro w hw
    unfold splitDots
    split
    · exact ⟨[w], rfl, by simpa using hw, fun T _ => by
        simp only [List.flatMap_cons, List.flatMap_nil, List.append_nil]
        exact LeT.refl (T := T) (semAll dict w)⟩
    · obtain ⟨w', e, h4, h5⟩ := Reach.splitDotRules hD hD' (us0 := semAll dict w) (F := F) db
        ⟨w, rfl, hw, fun T _ => LeT.refl _⟩
      refine ⟨splitU w', ?_, ?_, ?_⟩
      · rw [e, splitWs_encode fun u hu => (h4 u hu).tight hD]
      · exact fun v hv u hu => h4 u (mem_splitU hv hu)
      · intro T hT
        rw [← g_splitU]
        exact h5 T hT
  have hwords : ∀ ws : List (List U), (∀ w ∈ ws, ∀ u ∈ w, u.Good D dict) → ∃ vs : List (List U),
      (ws.map encode).flatMap (splitDots db) = vs.map encode ∧ (∀ v ∈ vs, ∀ u ∈ v, u.Good D dict) ∧
      ∀ T, F T → List.Forall₂ Kept (ws.flatMap fun w => T.g true (semAll dict w) true)
        (vs.flatMap fun v => T.g true (semAll dict v) true) := by
    intro ws
    induction ws with
    | nil => intro _; exact ⟨[], rfl, by simp, fun _ _ => .nil⟩
    | cons w ws ih =>
      intro h
      obtain ⟨v1, e1, g1, l1⟩ := hword w (h w (by simp))
      obtain ⟨v2, e2, g2, l2⟩ := ih fun w hw => h w (by simp [hw])
      refine ⟨v1 ++ v2, ?_, ?_, ?_⟩
      · rw [List.map_cons, List.flatMap_cons, e1, e2, List.map_append]
      · intro v hv
        rcases List.mem_append.mp hv with hv | hv
        · exact g1 v hv
        · exact g2 v hv
      · intro T hT
        rw [List.flatMap_cons, List.flatMap_append]
        exact List.rel_append (l1 T hT) (l2 T hT)
  obtain ⟨vs, e, g, l⟩ := hwords (splitU us) fun w hw u hu => h2 u (mem_splitU hw hu)
  refine ⟨joinU vs, ?_, ?_, ?_⟩
  · rw [splitWs_encode fun u hu => (h2 u hu).tight hD, e, encode_joinU]
  · intro u hu
    rcases mem_joinU hu with rfl | ⟨w, hw, hu⟩
    · exact not_D hD (by decide)
    · exact g w hw u hu
  · intro T hT
    have h4 := h3 T hT
    unfold LeT at h4 ⊢
    rw [g_joinU]
    rw [g_splitU] at h4
    exact Kept.forall₂_trans h4 (l T hT)

/-! ### Segmentation -/

omit hD hD' in
theorem cannot_safe (db : CharDB) : Safe db cannotRule.1 := by
  intro s t w ht he
  refine ⟨fun c hc => ?_, ?_⟩
  · have := Re.avoids_run (r := cannotRule.1) (delims_digit db) (by decide +kernel) s t w ht he c hc
    rcases hb : isDelim c with _ | _
    · rfl
    · exact absurd (isDelim_iff.mp hb) this
  · obtain ⟨-, v, hv, e, -⟩ := cannot_run ht
    have hwv : w = v := by
      have e2 := he.rest
      rw [e] at e2
      exact (List.append_cancel_right e2).symm
    subst hwv
    have h1 := congrArg (fun l => l[1]?) hv
    simp only [List.getElem?_map] at h1
    rcases hc2 : w[1]? with _ | c2
    · rw [hc2] at h1; simp at h1
    · rw [hc2] at h1
      have h2 : foldCase c2 = 'a' := by simpa using h1
      refine ⟨c2, List.mem_of_getElem? hc2, ?_⟩
      rcases hn : isName c2 with _ | _
      · rfl
      · exfalso
        unfold isName at hn
        rw [Bool.or_eq_true, List.contains_iff_mem] at hn
        rcases hn with hn | hn
        · simp only [Char.isDigit, Bool.and_eq_true, decide_eq_true_eq, ge_iff_le, UInt32.le_iff_toNat_le] at hn
          have g1 : 48 ≤ c2.toNat := hn.1
          have g2 : c2.toNat ≤ 57 := hn.2
          unfold foldCase lowerLetter at h2
          rw [if_neg (by omega), if_neg (by omega), if_neg (by omega), if_neg (by simp; omega)] at h2
          subst h2
          exact absurd g2 (by decide)
        · have : ∀ c ∈ ['P', 'R', 'O', 'T', 'E', 'C', 'D', 'N', 'S', 'G', 'L'], foldCase c ≠ 'a' := by decide
          exact this c2 hn h2

/-- The rule for stars (tokenizer.py:112). -/
def starRule : SubRule := (rei% r"(?<=[a-z])\*+(?=[a-z])", tpl% " * ")

omit hD hD' in
theorem segmentOff_eq : tokSegmentOff = [cannotRule, starRule] ++ tokSegmentOff.drop 2 := by decide +kernel

omit hD hD' in
theorem star_run {db : CharDB} {s t : St} {w : Str} (ht : t ∈ starRule.1.run db s) (he : Eats s t w) :
    w ≠ [] ∧ ∀ c ∈ w, c = '*' := by
  have hr : starRule.1 = .seq (.behind false (.cls ⟨false, true, [.range 'a' 'z']⟩))
      (.seq (.rep 1 true (.cls ⟨false, true, [.ch '*']⟩)) (.ahead false (.cls ⟨false, true, [.range 'a' 'z']⟩))) := by
    decide +kernel
  refine ⟨?_, ?_⟩
  · obtain ⟨c, hc, -⟩ := Re.needs_run (db := db) (p := fun c => c == '*') starRule.1 (by decide +kernel) s t w ht he
    exact List.ne_nil_of_mem hc
  · rw [hr] at ht
    refine Re.run_all _ (fun r => match r with
      | .cls k => decide (k = ⟨false, true, [.ch '*']⟩)
      | .seq a b => (a == .behind false (.cls ⟨false, true, [.range 'a' 'z']⟩) &&
          b == .seq (.rep 1 true (.cls ⟨false, true, [.ch '*']⟩)) (.ahead false (.cls ⟨false, true, [.range 'a' 'z']⟩))) ||
          (a == .rep 1 true (.cls ⟨false, true, [.ch '*']⟩) && b == .ahead false (.cls ⟨false, true, [.range 'a' 'z']⟩))
      | .alt _ _ => false
      | .rep _ _ a => a == .cls ⟨false, true, [.ch '*']⟩
      | .group _ _ => false
      | _ => true) ?_ ?_ ?_ ?_ ?_ _ (by decide) s t w ht he
    · intro k hk c hc
      simp only [decide_eq_true_eq] at hk
      subst hk
      simp only [Cls.test, List.any_cons, List.any_nil, Bool.or_false, bne_iff_ne, Bool.ne_false_iff,
        Item.test, if_true, beq_iff_eq] at hc
      exact foldCase_of_not_letter (by decide) (by decide) hc.symm
    · intro a b h
      simp only [Bool.or_eq_true, Bool.and_eq_true, beq_iff_eq] at h
      rcases h with ⟨rfl, rfl⟩ | ⟨rfl, rfl⟩ <;> decide
    · intro a b h; simp at h
    · intro n g a h
      simp only [beq_iff_eq] at h
      subst h
      decide
    · intro n a h; simp at h

omit hD' in
theorem Reach.star (db : CharDB) {x : Str} (hx : Reach D dict us0 (Fits db us0) x) :
    Reach D dict us0 (Fits db us0) (starRule.1.sub db starRule.2 x) := by
  refine Reach.sub hD (safeRe_safe db (by decide +kernel)) ?_ hx
  intro us hgood hle w pre t hw ht he
  obtain ⟨hne, hst⟩ := star_run ht he
  refine ⟨[.ch ' ', .ch '*', .ch ' '], ⟨?_, ?_⟩, ?_⟩
  · intro u hu
    simp only [List.mem_cons, List.not_mem_nil, or_false] at hu
    rcases hu with rfl | rfl | rfl <;> exact not_D hD (by decide)
  · intro T hT
    have hsem : semAll dict [U.ch ' ', .ch '*', .ch ' '] = [.ch ' ', .ch '*', .ch ' '] := rfl
    rw [hsem]
    by_cases h1 : w = ['*']
    · subst h1
      have := (LeB.ws (T := T) (v := []) (c := ' ') (by simp) (by decide)).append ((LeB.single (T := T) (.ch '*')).append
        (LeB.ws (T := T) (v := []) (c := ' ') (by simp) (by decide)))
      simpa using this
    · have h2 : ∃ w', w = '*' :: '*' :: w' := by
        match w, hne, hst, h1 with
        | [c], _, hst, h1 => exact absurd (by rw [hst c (by simp)]) h1
        | c :: d :: w', _, hst, _ => exact ⟨w', by rw [hst c (by simp), hst d (by simp)]⟩
      obtain ⟨w', rfl⟩ := h2
      rcases hT with hT | ⟨-, hf, hs⟩
      · refine LB_le hT (by simp) (fun c hc => by rw [hst c hc]; decide) ?_ ?_ ?_ (by simp)
        · intro u hu
          simp only [List.mem_cons, List.not_mem_nil, or_false] at hu
          rcases hu with rfl | rfl | rfl
          · exact ⟨_, rfl, by decide⟩
          · exact ⟨_, rfl, by decide⟩
          · exact ⟨_, rfl, by decide⟩
        · exact fun _ _ _ => rfl
        · exact fun _ _ _ => rfl
      · exfalso
        apply hs
        have h5 := infix_semAll (dict := dict) hw
        rw [semAll_ch] at h5
        have h3 := LeT.infix (w := '*' :: '*' :: w') (hle trStars (.inr ⟨.inr rfl, hf, hs⟩)) (by
          intro c hc
          rw [hst c hc]
          decide) h5
        refine List.IsInfix.trans ?_ h3
        exact ⟨[], w'.map U.ch, by simp⟩
  · simp [starRule, expand, U.enc]

theorem Reach.segmentOff (db : CharDB) {x : Str} (hx : Reach D dict us0 (Fits db us0) x) :
    Reach D dict us0 (Fits db us0) (subAll db tokSegmentOff x) := by
  rw [segmentOff_eq, subAll_append, subAll_cons, subAll_cons]
  refine Reach.rules hD hD' db _ (by decide +kernel) (Reach.star hD db ?_)
  refine Reach.sub hD (cannot_safe db) ?_ hx
  intro us _ _ w pre t _ ht he
  have h2 : plainTU (cannotRule.2.map toTU) = true := by decide +kernel
  refine ⟨expandU t.caps (cannotRule.2.map toTU), ⟨?_, ?_⟩, ?_⟩
  · exact expandU_good hD hD' dict he.caps_infix (cannot_safe db _ _ _ ht he).1 h2
  · intro T _
    have his : cannotRule.1.shape = some [.grp 1, .grp 2] := by decide +kernel
    exact alignW_le _ _ w (Re.shape_run _ _ his _ t w ht he t.caps fun _ _ => rfl) (by decide +kernel)
  · have := expand_tplOf w t.caps (cannotRule.2.map toTU) (by decide +kernel)
    rw [tplOf_toTU] at this
    exact this

/-- Everything between protection and restoration. -/
theorem Exact.toRestore (db : CharDB) {x : Str} (hx : Exact D dict us0 x) :
    Reach D dict us0 (Fits db us0)
      (join [' '] (splitWs (subAll db tokSegmentOff (join [' '] ((splitWs (tokAlwaysSplit.1.sub db tokAlwaysSplit.2
        (subAll db tokNoSplit x))).flatMap (splitDots db)))))) :=
  Reach.splitJoin hD (Reach.segmentOff hD hD' db (Reach.words hD hD' db (Reach.alwaysSplit hD db
    (Exact.noSplit hD hD' db hx))))

end

end Model
