import Verif.Lemmas.Inflection
import Verif.Lemmas.Standardizer
import Verif.Spec.Standard

/-! Families of spellings and the order in which they are tried. -/

namespace Model
open Py

/-! ### Cuts are unique -/

theorem sameLetter_unique {p q c : Char} (hp : 'a' ≤ p ∧ p ≤ 'z') (hq : 'a' ≤ q ∧ q ≤ 'z') (h : Spec.SameLetter p c)
    (h' : Spec.SameLetter q c) : p = q := by
  have hp1 : 97 ≤ p.toNat := hp.1
  have hp2 : p.toNat ≤ 122 := hp.2
  have hq1 : 97 ≤ q.toNat := hq.1
  have hq2 : q.toNat ≤ 122 := hq.2
  have key : ∀ {p : Char}, Spec.SameLetter p c → c.toNat = p.toNat ∨ (c.toNat ≤ 90 ∧ c.toNat + 32 = p.toNat) ∨
      (c.toNat = 304 ∧ p.toNat = 105) ∨ (c.toNat = 305 ∧ p.toNat = 105) ∨ (c.toNat = 383 ∧ p.toNat = 115) ∨
        (c.toNat = 8490 ∧ p.toNat = 107) := by
    rintro p (rfl | ⟨-, h2, h3⟩ | ⟨rfl, rfl | rfl⟩ | ⟨rfl, rfl⟩ | ⟨rfl, rfl⟩)
    · exact .inl rfl
    · exact .inr (.inl ⟨h2, h3⟩)
    all_goals decide
  have h1 := key h
  have h2 := key h'
  exact Char.toNat_inj.mp (by omega)

theorem spells_unique {l l' w : Str} (hl : LowerWord l) (hl' : LowerWord l') (h : Spec.Spells l w) (h' : Spec.Spells l' w) : l = l' := by
  induction h generalizing l' with
  | nil => cases h'; rfl
  | cons h1 _ ih =>
    cases h' with
    | cons k1 k2 =>
      rw [sameLetter_unique (hl _ (by simp)) (hl' _ (by simp)) h1 k1,
        ih (fun p hp => hl p (by simp [hp])) (fun p hp => hl' p (by simp [hp])) k2]

theorem spells_append {l l' w w' : Str} (h : Spec.Spells l w) (h' : Spec.Spells l' w') : Spec.Spells (l ++ l') (w ++ w') :=
  List.rel_append h h'

/-- Of two spelled endings of a text, the shorter one is an ending of the longer one. -/
theorem spells_suffix {l l' u v a b : Str} (hl : LowerWord l) (hl' : LowerWord l') (h : Spec.Spells l u) (h' : Spec.Spells l' v)
    (e : a ++ u = b ++ v) (hlen : u.length ≤ v.length) : ∃ k r, l' = k ++ l ∧ v = r ++ u ∧ Spec.Spells k r := by
  obtain ⟨r, rfl⟩ : u <:+ v := List.suffix_of_suffix_length_le ⟨a, rfl⟩ ⟨b, e.symm⟩ hlen
  have h1 : Spec.Spells (l'.take r.length) r ∧ Spec.Spells (l'.drop r.length) u := by
    have h2 : List.Forall₂ Spec.SameLetter l' (r ++ u) := h'
    exact ⟨List.forall₂_take_append l' r u h2, List.forall₂_drop_append l' r u h2⟩
  refine ⟨l'.take r.length, r, ?_, rfl, h1.1⟩
  have : l'.drop r.length = l := spells_unique (fun p hp => hl' p (List.mem_of_mem_drop hp)) hl h1.2 h
  rw [← this, List.take_append_drop]

/-- A decidable form: the endings of a family are no endings of each other. -/
def Sharp (f : Spec.Spelling) : Prop := ∀ m ∈ f.middles, ∀ e ∈ f.endings, ∀ m' ∈ f.middles, ∀ e' ∈ f.endings,
  (m ++ e) <:+ (m' ++ e') → m = m' ∧ e = e'

/-- Nor are they those of another family. -/
def Apart (f g : Spec.Spelling) : Prop := ∀ m ∈ f.middles, ∀ e ∈ f.endings, ∀ m' ∈ g.middles, ∀ e' ∈ g.endings,
  ¬ (m ++ e) <:+ (m' ++ e') ∧ ¬ (m' ++ e') <:+ (m ++ e)

theorem lower_append {l l' : Str} (h : LowerWord l) (h' : LowerWord l') : LowerWord (l ++ l') := by
  intro p hp
  rcases List.mem_append.mp hp with hp | hp
  · exact h p hp
  · exact h' p hp

theorem cut_unique {f : Spec.Spelling} (hf : SpellingOk f) (hs : Sharp f) {token s m e s' m' e' : Str} (h : f.Cut token s m e)
    (h' : f.Cut token s' m' e') : s = s' ∧ m = m' ∧ e = e' := by
  have key : ∀ {s m e s' m' e' : Str}, f.Cut token s m e → f.Cut token s' m' e' → (m ++ e).length ≤ (m' ++ e').length →
      s = s' ∧ m = m' ∧ e = e' := by
    intro s m e s' m' e' h h' hlen
    obtain ⟨lm, h1, h2⟩ := h.middle
    obtain ⟨le, h3, h4⟩ := h.ending
    obtain ⟨lm', k1, k2⟩ := h'.middle
    obtain ⟨le', k3, k4⟩ := h'.ending
    have e0 : s ++ (m ++ e) = s' ++ (m' ++ e') := by
      rw [← List.append_assoc, ← List.append_assoc, ← h.append, ← h'.append]
    obtain ⟨k, r, e1, -, -⟩ := spells_suffix (lower_append (hf.1 _ h1) (hf.2 _ h3)) (lower_append (hf.1 _ k1) (hf.2 _ k3))
      (spells_append h2 h4) (spells_append k2 k4) e0 hlen
    obtain ⟨rfl, rfl⟩ := hs _ h1 _ h3 _ k1 _ k3 ⟨k, e1.symm⟩
    have l1 := h2.length_eq
    have l2 := h4.length_eq
    have l3 := k2.length_eq
    have l4 := k4.length_eq
    obtain ⟨e2, e3⟩ := List.append_inj' e0 (by simp only [List.length_append]; omega)
    obtain ⟨e4, e5⟩ := List.append_inj e3 (by omega)
    exact ⟨e2, e4, e5⟩
  rcases Nat.le_total (m ++ e).length (m' ++ e').length with hl | hl
  · exact key h h' hl
  · obtain ⟨a, b, c⟩ := key h' h hl
    exact ⟨a.symm, b.symm, c.symm⟩

theorem cut_apart {f g : Spec.Spelling} (hf : SpellingOk f) (hg : SpellingOk g) (hs : Apart f g) {token s m e s' m' e' : Str}
    (h : f.Cut token s m e) : ¬ g.Cut token s' m' e' := by
  intro h'
  obtain ⟨lm, h1, h2⟩ := h.middle
  obtain ⟨le, h3, h4⟩ := h.ending
  obtain ⟨lm', k1, k2⟩ := h'.middle
  obtain ⟨le', k3, k4⟩ := h'.ending
  have e0 : s ++ (m ++ e) = s' ++ (m' ++ e') := by
    rw [← List.append_assoc, ← List.append_assoc, ← h.append, ← h'.append]
  have hl1 := lower_append (hf.1 _ h1) (hf.2 _ h3)
  have hl2 := lower_append (hg.1 _ k1) (hg.2 _ k3)
  rcases Nat.le_total (m ++ e).length (m' ++ e').length with hl | hl
  · obtain ⟨k, r, e1, -, -⟩ := spells_suffix hl1 hl2 (spells_append h2 h4) (spells_append k2 k4) e0 hl
    exact (hs _ h1 _ h3 _ k1 _ k3).1 ⟨k, e1.symm⟩
  · obtain ⟨k, r, e1, -, -⟩ := spells_suffix hl2 hl1 (spells_append k2 k4) (spells_append h2 h4) e0.symm hl
    exact (hs _ h1 _ h3 _ k1 _ k3).2 ⟨k, e1.symm⟩

theorem spelling_ok : ∀ f ∈ Spec.spellings, SpellingOk f ∧ Sharp f := by
  intro f hf
  simp only [Spec.spellings, List.mem_cons, List.not_mem_nil, or_false] at hf
  rcases hf with rfl | rfl | rfl | rfl | rfl <;> unfold SpellingOk LowerWord Sharp <;> decide

/-! ### Replacement is unique -/

theorem replace2_skip {a b : Char} (hab : a ≠ b) (new : Str) : ∀ (p t : Str), ¬ [a, b] <:+: p →
    replace2 a b new (p ++ [a, b] ++ t) = p ++ new ++ replace2 a b new t
  | [], t, _ => by simp [replace2]
  | [x], t, _ => by
    simp only [List.cons_append, List.nil_append]
    rw [replace2, if_neg (by rintro ⟨-, rfl⟩; exact hab rfl), replace2, if_pos ⟨rfl, rfl⟩]
  | x :: y :: p, t, h => by
    have ih := replace2_skip hab new (y :: p) t fun hi => h (hi.trans ⟨[x], [], by simp⟩)
    have hxy : ¬ (x = a ∧ y = b) := by
      rintro ⟨rfl, rfl⟩
      exact h ⟨[], p, by simp⟩
    simp only [List.cons_append] at ih ⊢
    rw [replace2, if_neg hxy, ih]

theorem replace2_none {a b : Char} (new : Str) : ∀ t : Str, ¬ [a, b] <:+: t → replace2 a b new t = t
  | [], _ => by simp [replace2]
  | [x], _ => by simp [replace2]
  | x :: y :: t, h => by
    have ih := replace2_none new (y :: t) fun hi => h (hi.trans ⟨[x], [], by simp⟩)
    have hxy : ¬ (x = a ∧ y = b) := by
      rintro ⟨rfl, rfl⟩
      exact h ⟨[], t, by simp⟩
    rw [replace2, if_neg hxy, ih]

theorem replaced_eq {a b : Char} (hab : a ≠ b) {new t u : Str} (h : Spec.Replaced a b new t u) : u = replace2 a b new t := by
  induction h with
  | done t ht => rw [replace2_none new t ht]
  | step p t u hp _ ih => rw [replace2_skip hab new p t hp, ih]

/-! ### The families one after the other -/

section
variable {R : Rounding} {log : ℚ → ℚ} {files : List (Int × Str)} {lm : LM}

theorem standardize_verdicts (h : LM.load R log files = .ok lm) (token : Str) :
    ∃ (v : List (Spec.Spelling × Option Str)) (wa wo : Option Str), v.map Prod.fst = Spec.spellings ∧
      standardize lm token = (if lm.hasNgram token 5 then .ok token
        else firstSome token (v.map (fun p => .ok p.2) ++ [.ok wa, .ok wo])) ∧
      (∀ p ∈ v, (∀ out, p.2 = some out → p.1.Respelled lm.contains lm.logp token out) ∧
        (p.2 = none → p.1.Undecided lm.contains token)) ∧
      ((∀ out, wa = some out → Spec.Ligature 'a' lm.contains lm.logp token out) ∧
        (wa = none → Spec.LigatureUndecided 'a' lm.contains token)) ∧
      (∀ out, wo = some out → Spec.Ligature 'o' lm.contains lm.logp token out) ∧
        (wo = none → Spec.LigatureUndecided 'o' lm.contains token) := by
  have a1 := alternation_spec h Spec.spellingOr (by unfold SpellingOk LowerWord; decide) token
    (fun s _ _ => .ok [s ++ c!"or", s ++ c!"our"]) (fun b e => b ++ e)
    (by intro s m e _; simp [Spec.Spelling.ngrams, Spec.spellingOr])
    (by intro s m e x _ _; simp [Spec.spellingOr])
  have a2 := alternation_spec h Spec.spellingIze (by unfold SpellingOk LowerWord; decide) token
    (fun s m _ => do
      let v ← index m 0
      return [s ++ [v] ++ c!"ze", s ++ [v] ++ c!"se"]) (fun b e => sliceTo b (-1) ++ e)
    (by
      intro s m e hc
      obtain ⟨l, hl, hs⟩ := hc.middle
      have : m ≠ [] := by
        intro e0
        rw [e0] at hs
        simp only [Spec.spellingIze, List.mem_cons, List.not_mem_nil, or_false] at hl
        rcases hl with rfl | rfl | rfl | rfl <;> cases hs
      obtain ⟨v, m', rfl⟩ := List.exists_cons_of_ne_nil this
      simp [Spec.Spelling.ngrams, Spec.spellingIze, index, bind, Except.bind, pure, Except.pure])
    (by
      intro s m e x _ _
      simp only [Spec.spellingIze]
      rw [sliceTo_neg_one, List.dropLast_concat])
  have a3 := alternation_spec h Spec.spellingCe (by unfold SpellingOk LowerWord; decide) token
    (fun s _ _ => .ok [s ++ c!"se", s ++ c!"ce"]) (fun b e => sliceTo b (-1) ++ e)
    (by intro s m e _; simp [Spec.Spelling.ngrams, Spec.spellingCe])
    (by
      intro s m e x _ _
      simp only [Spec.spellingCe]
      rw [sliceTo_neg_one, List.dropLast_concat])
  have a4 := alternation_spec h Spec.spellingOgue (by unfold SpellingOk LowerWord; decide) token
    (fun s _ _ => .ok [s ++ c!"og", s ++ c!"ogue"]) (fun b e => b ++ e)
    (by intro s m e _; simp [Spec.Spelling.ngrams, Spec.spellingOgue])
    (by intro s m e x _ _; simp [Spec.spellingOgue])
  have a5 := alternation_spec h Spec.spellingEl (by unfold SpellingOk LowerWord; decide) token
    (fun s _ e => .ok [s ++ c!"el" ++ e, s ++ c!"ell" ++ e]) (fun b _ => b)
    (by intro s m e _; simp [Spec.Spelling.ngrams, Spec.spellingEl])
    (by intro s m e x _ _; simp [Spec.spellingEl])
  have a6 := ligature_spec h token 'a'
  have a7 := ligature_spec h token 'o'
  have hu : ∀ f ∈ Spec.spellings, ((∀ s m e, ¬ f.Cut token s m e) ∨
      ∃ s m e, f.Cut token s m e ∧ ∀ g ∈ f.ngrams s m e, lm.contains g = false) → f.Undecided lm.contains token := by
    rintro f hf (h1 | ⟨s, m, e, h1, h2⟩) s' m' e' hc
    · exact absurd hc (h1 _ _ _)
    · obtain ⟨rfl, rfl, rfl⟩ := cut_unique (spelling_ok f hf).1 (spelling_ok f hf).2 h1 hc
      exact h2
  have hl : ∀ a : Char, a ≠ 'e' → (¬ (5 ≤ token.length ∧ [a, 'e'] <:+: token) ∨
      ∃ u, Spec.Replaced a 'e' ['e'] token u ∧ lm.contains u = false ∧ lm.contains token = false) →
      Spec.LigatureUndecided a lm.contains token := by
    rintro a ha (h1 | ⟨u, h1, h2⟩) k1 k2 v hv
    · exact absurd ⟨k1, k2⟩ h1
    · rw [replaced_eq ha hv, ← replaced_eq ha h1]
      exact h2
  obtain ⟨⟨r1, e1⟩, b1, c1⟩ := a1
  obtain ⟨⟨r2, e2⟩, b2, c2⟩ := a2
  obtain ⟨⟨r3, e3⟩, b3, c3⟩ := a3
  obtain ⟨⟨r4, e4⟩, b4, c4⟩ := a4
  obtain ⟨⟨r5, e5⟩, b5, c5⟩ := a5
  obtain ⟨⟨r6, e6⟩, b6, c6⟩ := a6
  obtain ⟨⟨r7, e7⟩, b7, c7⟩ := a7
  rw [e1] at b1 c1
  rw [e2] at b2 c2
  rw [e3] at b3 c3
  rw [e4] at b4 c4
  rw [e5] at b5 c5
  rw [e6] at b6 c6
  rw [e7] at b7 c7
  refine ⟨[(Spec.spellingOr, r1), (Spec.spellingIze, r2), (Spec.spellingCe, r3), (Spec.spellingOgue, r4), (Spec.spellingEl, r5)],
    r6, r7, rfl, ?_, ?_, ⟨fun out e => b6 out (by rw [e]), fun e => hl 'a' (by decide) (c6 (by rw [e]))⟩,
    fun out e => b7 out (by rw [e]), fun e => hl 'o' (by decide) (c7 (by rw [e]))⟩
  · unfold standardize
    simp only [Spec.spellingOr, Spec.spellingIze, Spec.spellingCe, Spec.spellingOgue, Spec.spellingEl] at e1 e2 e3 e4 e5
    rw [e1, e2, e3, e4, e5, e6, e7]
    rfl
  · intro p hp
    simp only [List.mem_cons, List.not_mem_nil, or_false] at hp
    rcases hp with rfl | rfl | rfl | rfl | rfl
    · exact ⟨fun out e => b1 out (congrArg _ e), fun e => hu _ (by simp [Spec.spellings]) (c1 (congrArg _ e))⟩
    · exact ⟨fun out e => b2 out (congrArg _ e), fun e => hu _ (by simp [Spec.spellings]) (c2 (congrArg _ e))⟩
    · exact ⟨fun out e => b3 out (congrArg _ e), fun e => hu _ (by simp [Spec.spellings]) (c3 (congrArg _ e))⟩
    · exact ⟨fun out e => b4 out (congrArg _ e), fun e => hu _ (by simp [Spec.spellings]) (c4 (congrArg _ e))⟩
    · exact ⟨fun out e => b5 out (congrArg _ e), fun e => hu _ (by simp [Spec.spellings]) (c5 (congrArg _ e))⟩

theorem firstSome_verdicts (d : Str) (v : List (Spec.Spelling × Option Str)) (rest : List (Except PyErr (Option Str))) :
    ((∀ p ∈ v, p.2 = none) ∧ firstSome d (v.map (fun p => .ok p.2) ++ rest) = firstSome d rest) ∨
      ∃ pre f post out, v = pre ++ (f, some out) :: post ∧ (∀ p ∈ pre, p.2 = none) ∧
        firstSome d (v.map (fun p => .ok p.2) ++ rest) = .ok out := by
  induction v with
  | nil => exact .inl ⟨by simp, rfl⟩
  | cons p v ih =>
    obtain ⟨f, o⟩ := p
    cases o with
    | some out => exact .inr ⟨[], f, v, out, rfl, by simp, rfl⟩
    | none =>
      have e : firstSome d (((f, none) :: v).map (fun p : Spec.Spelling × Option Str => (.ok p.2 : Except PyErr (Option Str))) ++ rest) =
          firstSome d (v.map (fun p => .ok p.2) ++ rest) := rfl
      rw [e]
      rcases ih with ⟨h1, h2⟩ | ⟨pre, g, post, out, rfl, h2, h3⟩
      · exact .inl ⟨by simpa using h1, h2⟩
      · exact .inr ⟨(f, none) :: pre, g, post, out, rfl, by simpa using h2, h3⟩

theorem standardize_standard (h : LM.load R log files = .ok lm) (token : Str) :
    ∃ out, standardize lm token = .ok out ∧ Spec.Standard lm.contains lm.logp (lm.hasNgram · 5) token out := by
  obtain ⟨v, wa, wo, h1, h2, h3, ⟨h4, h5⟩, h6, h7⟩ := standardize_verdicts h token
  rw [h2]
  by_cases ho : lm.hasNgram token 5 = true
  · rw [if_pos ho]
    exact ⟨token, rfl, .often ho⟩
  · rw [if_neg ho]
    have ho : lm.hasNgram token 5 = false := by simpa using ho
    rcases firstSome_verdicts token v [.ok wa, .ok wo] with ⟨k1, k2⟩ | ⟨pre, f, post, out, rfl, k2, k3⟩
    · rw [k2]
      have hall : ∀ f ∈ Spec.spellings, f.Undecided lm.contains token := by
        intro f hf
        rw [← h1] at hf
        obtain ⟨p, hp, rfl⟩ := List.mem_map.mp hf
        exact (h3 p hp).2 (k1 p hp)
      cases wa with
      | some out => exact ⟨out, rfl, .ae out ho hall (h4 out rfl)⟩
      | none =>
        cases wo with
        | some out => exact ⟨out, rfl, .oe out ho hall (h5 rfl) (h6 out rfl)⟩
        | none => exact ⟨token, rfl, .kept ho hall (h5 rfl) (h7 rfl)⟩
    · rw [k3]
      refine ⟨out, rfl, .family (pre.map Prod.fst) f (post.map Prod.fst) out ho (by rw [← h1]; simp) ?_
        ((h3 (f, some out) (by simp)).1 out rfl)⟩
      intro g hg
      obtain ⟨p, hp, rfl⟩ := List.mem_map.mp hg
      exact (h3 p (by simp [hp])).2 (k2 p hp)

end

/-! ### One standard spelling -/

section
variable {known : Str → Bool} {logp : Str → WithBot ℚ} {often : Str → Bool} {token : Str}

theorem respelled_decided {f : Spec.Spelling} {out : Str} (h : f.Respelled known logp token out) : ¬ f.Undecided known token := by
  intro hu
  obtain ⟨s, m, e, x, h1, h2, -, h4, -⟩ := h
  rw [hu s m e h1 _ (List.mem_map.mpr ⟨x, h2, rfl⟩)] at h4
  cases h4

theorem respelled_unique {f : Spec.Spelling} (hf : f ∈ Spec.spellings) {out out' : Str} (h : f.Respelled known logp token out)
    (h' : f.Respelled known logp token out') : out = out' := by
  obtain ⟨s, m, e, x, h1, h2, rfl, h4, h5⟩ := h
  obtain ⟨s', m', e', x', k1, k2, rfl, k4, k5⟩ := h'
  obtain ⟨rfl, rfl, rfl⟩ := cut_unique (spelling_ok f hf).1 (spelling_ok f hf).2 h1 k1
  have e0 := firstMax_unique h5 k5
  rw [List.append_left_inj, List.append_right_inj] at e0
  rw [e0]

theorem ligature_decided {a : Char} {out : Str} (h : Spec.Ligature a known logp token out) : ¬ Spec.LigatureUndecided a known token := by
  intro hu
  obtain ⟨h1, h2, u, h3, h4, p, q, h5, -⟩ := h
  obtain ⟨k1, k2⟩ := hu h1 h2 u h3
  have hm : out ∈ [u, token] := by rw [h5]; simp
  simp only [List.mem_cons, List.not_mem_nil, or_false] at hm
  rcases hm with rfl | rfl
  · rw [k1] at h4; cases h4
  · rw [k2] at h4; cases h4

theorem ligature_unique {a : Char} (ha : a ≠ 'e') {out out' : Str} (h : Spec.Ligature a known logp token out)
    (h' : Spec.Ligature a known logp token out') : out = out' := by
  obtain ⟨h1, h2, u, h3, h4, h5⟩ := h
  obtain ⟨k1, k2, u', k3, k4, k5⟩ := h'
  rw [replaced_eq ha h3] at h5
  rw [replaced_eq ha k3] at k5
  exact firstMax_unique h5 k5

theorem standard_unique {out out' : Str} (h : Spec.Standard known logp often token out)
    (h' : Spec.Standard known logp often token out') : out = out' := by
  have hmem : ∀ {pre f post}, Spec.spellings = pre ++ f :: post → f ∈ Spec.spellings := by
    intro pre f post e
    rw [e]
    simp
  cases h with
  | often h1 =>
    cases h' with
    | often => rfl
    | family _ _ _ _ k1 => rw [h1] at k1; cases k1
    | ae _ k1 => rw [h1] at k1; cases k1
    | oe _ k1 => rw [h1] at k1; cases k1
    | kept => rfl
  | family pre f post _ h1 h2 h3 h4 =>
    cases h' with
    | often k1 => rw [h1] at k1; cases k1
    | family pre' f' post' _ k1 k2 k3 k4 =>
      have : f = f' := by
        rw [h2] at k2
        rcases List.append_eq_append_iff.mp k2 with ⟨r, e1, e2⟩ | ⟨r, e1, e2⟩
        · cases r with
          | nil => exact (List.cons.inj e2).1
          | cons g r =>
            obtain ⟨rfl, -⟩ := List.cons.inj e2
            exact absurd (k3 f (by rw [e1]; simp)) (respelled_decided h4)
        · cases r with
          | nil => exact (List.cons.inj e2).1.symm
          | cons g r =>
            obtain ⟨rfl, -⟩ := List.cons.inj e2
            exact absurd (h3 f' (by rw [e1]; simp)) (respelled_decided k4)
      subst this
      exact respelled_unique (hmem h2) h4 k4
    | ae _ _ k2 => exact absurd (k2 f (hmem h2)) (respelled_decided h4)
    | oe _ _ k2 => exact absurd (k2 f (hmem h2)) (respelled_decided h4)
    | kept _ k2 => exact absurd (k2 f (hmem h2)) (respelled_decided h4)
  | ae _ h1 h2 h3 =>
    cases h' with
    | often k1 => rw [h1] at k1; cases k1
    | family _ f _ _ _ k2 _ k4 => exact absurd (h2 f (hmem k2)) (respelled_decided k4)
    | ae _ _ _ k3 => exact ligature_unique (by decide) h3 k3
    | oe _ _ _ k3 => exact absurd k3 (ligature_decided h3)
    | kept _ _ k3 => exact absurd k3 (ligature_decided h3)
  | oe _ h1 h2 h3 h4 =>
    cases h' with
    | often k1 => rw [h1] at k1; cases k1
    | family _ f _ _ _ k2 _ k4 => exact absurd (h2 f (hmem k2)) (respelled_decided k4)
    | ae _ _ _ k3 => exact absurd h3 (ligature_decided k3)
    | oe _ _ _ _ k4 => exact ligature_unique (by decide) h4 k4
    | kept _ _ _ k4 => exact absurd k4 (ligature_decided h4)
  | kept h1 h2 h3 h4 =>
    cases h' with
    | often => rfl
    | family _ f _ _ _ k2 _ k4 => exact absurd (h2 f (hmem k2)) (respelled_decided k4)
    | ae _ _ _ k3 => exact absurd h3 (ligature_decided k3)
    | oe _ _ _ _ k4 => exact absurd h4 (ligature_decided k4)
    | kept => rfl

end

/-! ### The family that decides -/

theorem families_apart : Apart Spec.spellingIze Spec.spellingOr ∧ Apart Spec.spellingCe Spec.spellingOr ∧
    Apart Spec.spellingOgue Spec.spellingOr ∧ Apart Spec.spellingOgue Spec.spellingIze ∧ Apart Spec.spellingOgue Spec.spellingCe ∧
    Apart Spec.spellingEl Spec.spellingOr ∧ Apart Spec.spellingEl Spec.spellingIze ∧ Apart Spec.spellingEl Spec.spellingCe ∧
    Apart Spec.spellingEl Spec.spellingOgue := by
  unfold Apart
  decide

theorem ce_ize : ∀ m ∈ Spec.spellingCe.middles, ∀ e ∈ Spec.spellingCe.endings, ∀ m' ∈ Spec.spellingIze.middles,
    ∀ e' ∈ Spec.spellingIze.endings, ¬ (m' ++ e') <:+ (m ++ e) ∧
      ((m ++ e) <:+ (m' ++ e') → m' ++ e' = 'i' :: (m ++ e) ∨ m' ++ e' = 'y' :: (m ++ e)) := by decide

theorem ce_not_ize {token s m e s' m' e' : Str} (h : Spec.spellingCe.Cut token s m e) (hs : Spec.NotIze s) :
    ¬ Spec.spellingIze.Cut token s' m' e' := by
  intro h'
  have hf := (spelling_ok Spec.spellingCe (by simp [Spec.spellings])).1
  have hg := (spelling_ok Spec.spellingIze (by simp [Spec.spellings])).1
  obtain ⟨lm, h1, h2⟩ := h.middle
  obtain ⟨le, h3, h4⟩ := h.ending
  obtain ⟨lm', k1, k2⟩ := h'.middle
  obtain ⟨le', k3, k4⟩ := h'.ending
  have e0 : s ++ (m ++ e) = s' ++ (m' ++ e') := by
    rw [← List.append_assoc, ← List.append_assoc, ← h.append, ← h'.append]
  have hl1 := lower_append (hf.1 _ h1) (hf.2 _ h3)
  have hl2 := lower_append (hg.1 _ k1) (hg.2 _ k3)
  obtain ⟨c1, c2⟩ := ce_ize _ h1 _ h3 _ k1 _ k3
  rcases Nat.le_total (m ++ e).length (m' ++ e').length with hl | hl
  · obtain ⟨k, r, e1, e2, e3⟩ := spells_suffix hl1 hl2 (spells_append h2 h4) (spells_append k2 k4) e0 hl
    have hk : k = ['i'] ∨ k = ['y'] := by
      rcases c2 ⟨k, e1.symm⟩ with e4 | e4
      · exact .inl (List.append_cancel_right (e1.symm.trans e4))
      · exact .inr (List.append_cancel_right (e1.symm.trans e4))
    rw [e2, ← List.append_assoc s' r] at e0
    have e5 := List.append_cancel_right e0
    rcases hk with rfl | rfl
    · obtain ⟨c, hc, rfl⟩ : ∃ c, Spec.SameLetter 'i' c ∧ r = [c] := by
        cases e3 with
        | cons a b => cases b; exact ⟨_, a, rfl⟩
      exact (hs c (by rw [e5]; simp)).1 hc
    · obtain ⟨c, hc, rfl⟩ : ∃ c, Spec.SameLetter 'y' c ∧ r = [c] := by
        cases e3 with
        | cons a b => cases b; exact ⟨_, a, rfl⟩
      exact (hs c (by rw [e5]; simp)).2 hc
  · obtain ⟨k, r, e1, -, -⟩ := spells_suffix hl2 hl1 (spells_append k2 k4) (spells_append h2 h4) e0.symm hl
    exact c1 ⟨k, e1.symm⟩

/-- Families that are tried before do not apply. -/
theorem first_family {f : Spec.Spelling} (hf : f ∈ Spec.spellings) {s : Str} (hs : f = Spec.spellingCe → Spec.NotIze s) :
    ∃ pre post, Spec.spellings = pre ++ f :: post ∧ ∀ token m e, f.Cut token s m e → ∀ g ∈ pre, ∀ s' m' e', ¬ g.Cut token s' m' e' := by
  have ok := fun f hf => (spelling_ok f hf).1
  obtain ⟨a1, a2, a3, a4, a5, a6, a7, a8, a9⟩ := families_apart
  have hm := hf
  simp only [Spec.spellings, List.mem_cons, List.not_mem_nil, or_false] at hm
  rcases hm with rfl | rfl | rfl | rfl | rfl
  · exact ⟨[], _, rfl, by simp⟩
  · refine ⟨[Spec.spellingOr], _, rfl, fun token m e hc g hg s' m' e' => ?_⟩
    obtain rfl := List.mem_singleton.mp hg
    exact cut_apart (ok _ hf) (ok _ (by simp [Spec.spellings])) a1 hc
  · refine ⟨[Spec.spellingOr, Spec.spellingIze], _, rfl, fun token m e hc g hg s' m' e' => ?_⟩
    simp only [List.mem_cons, List.not_mem_nil, or_false] at hg
    rcases hg with rfl | rfl
    · exact cut_apart (ok _ hf) (ok _ (by simp [Spec.spellings])) a2 hc
    · exact ce_not_ize hc (hs rfl)
  · refine ⟨[Spec.spellingOr, Spec.spellingIze, Spec.spellingCe], _, rfl, fun token m e hc g hg s' m' e' => ?_⟩
    simp only [List.mem_cons, List.not_mem_nil, or_false] at hg
    rcases hg with rfl | rfl | rfl
    · exact cut_apart (ok _ hf) (ok _ (by simp [Spec.spellings])) a3 hc
    · exact cut_apart (ok _ hf) (ok _ (by simp [Spec.spellings])) a4 hc
    · exact cut_apart (ok _ hf) (ok _ (by simp [Spec.spellings])) a5 hc
  · refine ⟨[Spec.spellingOr, Spec.spellingIze, Spec.spellingCe, Spec.spellingOgue], _, rfl, fun token m e hc g hg s' m' e' => ?_⟩
    simp only [List.mem_cons, List.not_mem_nil, or_false] at hg
    rcases hg with rfl | rfl | rfl | rfl
    · exact cut_apart (ok _ hf) (ok _ (by simp [Spec.spellings])) a6 hc
    · exact cut_apart (ok _ hf) (ok _ (by simp [Spec.spellings])) a7 hc
    · exact cut_apart (ok _ hf) (ok _ (by simp [Spec.spellings])) a8 hc
    · exact cut_apart (ok _ hf) (ok _ (by simp [Spec.spellings])) a9 hc

theorem sameLetter_refl (p : Char) : Spec.SameLetter p p := .inl rfl

theorem spells_refl (w : Str) : Spec.Spells w w := by
  induction w with
  | nil => exact .nil
  | cons p w ih => exact .cons (sameLetter_refl p) ih

/-- A respelled word belongs to the family. -/
theorem cut_respelled {f : Spec.Spelling} (hf : f ∈ Spec.spellings) {token s m e x : Str} (h : f.Cut token s m e) (hx : x ∈ f.alts m) :
    f.Cut (s ++ x ++ e) s x e ∧ f.alts x = f.alts m := by
  have hm := hf
  simp only [Spec.spellings, List.mem_cons, List.not_mem_nil, or_false] at hm
  have easy : (∀ m : Str, f.alts m ⊆ f.middles) → f.Cut (s ++ x ++ e) s x e := fun hall =>
    ⟨rfl, h.letters, h.long, ⟨x, hall _ hx, spells_refl x⟩, h.ending⟩
  rcases hm with rfl | rfl | rfl | rfl | rfl
  · exact ⟨easy fun m => by simp [Spec.spellingOr], rfl⟩
  · obtain ⟨l, h1, h2⟩ := h.middle
    have hl : ∃ v z, l = [v, z] ∧ ∀ y ∈ ['z', 's'], [v, y] ∈ Spec.spellingIze.middles := by
      simp only [Spec.spellingIze, List.mem_cons, List.not_mem_nil, or_false] at h1
      rcases h1 with rfl | rfl | rfl | rfl
      · exact ⟨_, _, rfl, by decide⟩
      · exact ⟨_, _, rfl, by decide⟩
      · exact ⟨_, _, rfl, by decide⟩
      · exact ⟨_, _, rfl, by decide⟩
    obtain ⟨v, z, rfl, hv⟩ := hl
    cases h2 with
    | @cons _ v' _ m' h3 h4 =>
      have hx' : ∃ y ∈ ['z', 's'], x = [v', y] := by
        simpa [Spec.spellingIze] using hx
      obtain ⟨y, hy, rfl⟩ := hx'
      exact ⟨⟨rfl, h.letters, h.long, ⟨_, hv y hy, .cons h3 (.cons (sameLetter_refl y) .nil)⟩, h.ending⟩, rfl⟩
  · exact ⟨easy fun m => by simp [Spec.spellingCe], rfl⟩
  · exact ⟨easy fun m => by simp [Spec.spellingOgue], rfl⟩
  · exact ⟨easy fun m => by simp [Spec.spellingEl], rfl⟩

end Model
