import Verif.Lemmas.Normalization
import Verif.Spec.Normalization
import Verif.Lemmas.Ngrams

/-! Lemmas on the standardizer. -/

namespace Model
open Py

/-! ### Case-insensitive matching -/

theorem matchI_iff {p c : Char} (h1 : 'a' ≤ p) (h2 : p ≤ 'z') : matchI p c = true ↔ Spec.SameLetter p c := by
  have hl : lowerAscii c = p ↔ (c = p ∨ ('A' ≤ c ∧ c ≤ 'Z' ∧ c.toNat + 32 = p.toNat)) := by
    unfold lowerAscii
    by_cases hu : 'A' ≤ c ∧ c ≤ 'Z'
    · rw [if_pos hu]
      have hb : c.toNat ≤ 90 := hu.2
      have hn : (Char.ofNat (c.toNat + 32)).toNat = c.toNat + 32 := by
        exact toNat_ofNat_small (by omega)
      constructor
      · intro e
        right
        refine ⟨hu.1, hu.2, ?_⟩
        rw [← e, hn]
      · rintro (e | ⟨-, -, e⟩)
        · exfalso
          have h3 : 97 ≤ p.toNat := h1
          rw [← e] at h3
          omega
        · apply Char.toNat_inj.mp
          rw [hn, e]
    · rw [if_neg hu]
      constructor
      · exact Or.inl
      · rintro (e | ⟨h3, h4, -⟩)
        · exact e
        · exact absurd ⟨h3, h4⟩ hu
  unfold matchI Spec.SameLetter
  simp only [Bool.or_eq_true, Bool.and_eq_true, decide_eq_true_eq, hl]
  tauto

theorem isLetterI_iff {c : Char} : isLetterI c = true → ∃ p, 'a' ≤ p ∧ p ≤ 'z' ∧ Spec.SameLetter p c := by
  intro h
  unfold isLetterI isAsciiLetter at h
  simp only [Bool.or_eq_true, Bool.and_eq_true, decide_eq_true_eq] at h
  rcases h with (((((⟨h1, h2⟩ | ⟨h1, h2⟩) | h) | h) | h) | h)
  · exact ⟨c, h1, h2, Or.inl rfl⟩
  · have hb : c.toNat ≤ 90 := h2
    have ha : 65 ≤ c.toNat := h1
    have hn : (Char.ofNat (c.toNat + 32)).toNat = c.toNat + 32 := by
      exact toNat_ofNat_small (by omega)
    refine ⟨Char.ofNat (c.toNat + 32), ?_, ?_, Or.inr (Or.inl ⟨h1, h2, hn.symm⟩)⟩
    · show (97 : Nat) ≤ (Char.ofNat (c.toNat + 32)).toNat
      omega
    · show (Char.ofNat (c.toNat + 32)).toNat ≤ 122
      omega
  · exact ⟨'i', by decide, by decide, by simp [Spec.SameLetter, h]⟩
  · exact ⟨'i', by decide, by decide, by simp [Spec.SameLetter, h]⟩
  · exact ⟨'s', by decide, by decide, by simp [Spec.SameLetter, h]⟩
  · exact ⟨'k', by decide, by decide, by simp [Spec.SameLetter, h]⟩

theorem isLetterI_of {p c : Char} (h1 : 'a' ≤ p) (h2 : p ≤ 'z') (h : Spec.SameLetter p c) : isLetterI c = true := by
  unfold isLetterI isAsciiLetter
  simp only [Bool.or_eq_true, Bool.and_eq_true, decide_eq_true_eq]
  rcases h with rfl | ⟨h3, h4, -⟩ | ⟨-, rfl | rfl⟩ | ⟨-, rfl⟩ | ⟨-, rfl⟩
  · simp [h1, h2]
  · simp [h3, h4]
  · simp
  · simp
  · simp
  · simp

/-- A lower-case ASCII word. -/
def LowerWord (w : Str) : Prop := ∀ p ∈ w, 'a' ≤ p ∧ p ≤ 'z'

theorem litI_iff : ∀ (p t a b : Str), LowerWord p → (litI p t = some (a, b) ↔ t = a ++ b ∧ Spec.Spells p a)
  | [], t, a, b, _ => by
    simp only [litI, Option.some.injEq, Prod.mk.injEq, Spec.Spells, List.forall₂_nil_left_iff]
    constructor
    · rintro ⟨rfl, rfl⟩; exact ⟨rfl, rfl⟩
    · rintro ⟨h, rfl⟩; exact ⟨rfl, h⟩
  | p :: ps, [], a, b, _ => by
    simp only [litI, reduceCtorEq, false_iff, not_and]
    intro h
    rw [List.nil_eq, List.append_eq_nil_iff] at h
    rw [h.1]
    intro h'
    cases h'
  | p :: ps, c :: cs, a, b, hp => by
    have hpp := hp p (by simp)
    have ih := fun a => litI_iff ps cs a b (fun q hq => hp q (List.mem_cons_of_mem _ hq))
    simp only [litI]
    by_cases hm : matchI p c = true
    · rw [if_pos hm]
      have hs := (matchI_iff hpp.1 hpp.2).mp hm
      simp only [Option.map_eq_some_iff, Prod.mk.injEq, Prod.exists]
      constructor
      · rintro ⟨a', b', h1, rfl, rfl⟩
        obtain ⟨h2, h3⟩ := (ih a').mp h1
        exact ⟨by rw [h2]; rfl, List.Forall₂.cons hs h3⟩
      · rintro ⟨h1, h2⟩
        cases h2 with
        | cons h3 h4 =>
          rename_i c' a'
          simp only [List.cons_append, List.cons.injEq] at h1
          exact ⟨a', b, (ih a').mpr ⟨h1.2, h4⟩, by rw [h1.1], rfl⟩
    · rw [if_neg hm]
      simp only [reduceCtorEq, false_iff, not_and]
      intro h1 h2
      cases h2 with
      | cons h3 h4 =>
        simp only [List.cons_append, List.cons.injEq] at h1
        rw [← h1.1] at h3
        exact hm ((matchI_iff hpp.1 hpp.2).mpr h3)

/-! ### Cutting a token in three -/

theorem takeWhile_take_all {α} (p : α → Bool) : ∀ (l : List α) (k : Nat), k ≤ (l.takeWhile p).length → ∀ x ∈ l.take k, p x = true
  | [], _, _, x, hx => by simp at hx
  | a :: l, 0, _, x, hx => by simp at hx
  | a :: l, k + 1, hk, x, hx => by
    by_cases h : p a = true
    · rw [List.takeWhile_cons_of_pos h, List.length_cons] at hk
      rw [List.take_succ_cons, List.mem_cons] at hx
      rcases hx with rfl | hx
      · exact h
      · exact takeWhile_take_all p l k (by omega) x hx
    · rw [List.takeWhile_cons_of_neg h] at hk
      simp at hk

theorem length_le_takeWhile {α} (p : α → Bool) (s r : List α) (h : ∀ x ∈ s, p x = true) :
    s.length ≤ ((s ++ r).takeWhile p).length := by
  rw [List.takeWhile_append_of_pos h, List.length_append]
  omega

/-- The matches of the regular expression. -/
theorem mem_splitMatches {token s m e : Str} {middles endings : List Str} (hm : ∀ l ∈ middles, LowerWord l)
    (he : ∀ l ∈ endings, LowerWord l) : (s, m, e) ∈ splitMatches token middles endings ↔
      token = s ++ m ++ e ∧ s ≠ [] ∧ (∀ c ∈ s, isLetterI c = true) ∧ (∃ l ∈ middles, Spec.Spells l m) ∧
        ∃ l ∈ endings, Spec.Spells l e := by
  unfold splitMatches
  simp only [List.mem_flatMap, List.mem_reverse, List.mem_range]
  constructor
  · rintro ⟨k, hk, l, hl, h⟩
    split at h
    · simp at h
    · rename_i mid rest hlit
      obtain ⟨h1, h2⟩ := (litI_iff _ _ _ _ (hm l hl)).mp hlit
      simp only [List.mem_filterMap] at h
      obtain ⟨le, hle, h⟩ := h
      split at h
      · rename_i fin hfin
        obtain ⟨h3, h4⟩ := (litI_iff _ _ _ _ (he le hle)).mp hfin
        simp only [Option.some.injEq, Prod.mk.injEq] at h
        obtain ⟨rfl, rfl, rfl⟩ := h
        rw [List.append_nil] at h3
        refine ⟨?_, ?_, ?_, ⟨l, hl, h2⟩, ⟨le, hle, h4⟩⟩
        · rw [List.append_assoc, ← h3, ← h1, List.take_append_drop]
        · intro e0
          have := congrArg List.length e0
          have hlt : (token.takeWhile isLetterI).length ≤ token.length := (List.takeWhile_prefix _).length_le
          simp only [List.length_take, List.length_nil] at this
          omega
        · exact takeWhile_take_all _ _ _ (by omega)
      · simp at h
  · rintro ⟨rfl, hne, hlet, ⟨l, hl, h2⟩, ⟨le, hle, h4⟩⟩
    have hpos : 0 < s.length := List.length_pos_iff.mpr hne
    refine ⟨s.length - 1, ?_, l, hl, ?_⟩
    · have := length_le_takeWhile isLetterI s (m ++ e) hlet
      rw [List.append_assoc]
      omega
    · have e1 : s.length - 1 + 1 = s.length := by omega
      have e2 : (s ++ m ++ e).drop s.length = m ++ e := by rw [List.append_assoc, List.drop_left]
      have e3 : (s ++ m ++ e).take s.length = s := by rw [List.append_assoc, List.take_left]
      rw [e1, e2, e3, (litI_iff l (m ++ e) m e (hm l hl)).mpr ⟨rfl, h2⟩]
      simp only [List.mem_filterMap]
      refine ⟨le, hle, ?_⟩
      rw [(litI_iff le e e [] (he le hle)).mpr ⟨by simp, h4⟩]

/-- The first match has the longest start. -/
theorem splitMatches_head {token : Str} {middles endings : List Str} {r : Str × Str × Str}
    (h : (splitMatches token middles endings).head? = some r) :
    ∀ q ∈ splitMatches token middles endings, q.1.length ≤ r.1.length := by
  have hpw : (splitMatches token middles endings).Pairwise fun a b => b.1.length ≤ a.1.length := by
    unfold splitMatches
    have hlen : ∀ (k : Nat) (q : Str × Str × Str), q ∈ (middles.flatMap fun m =>
        match litI m (token.drop (k + 1)) with
        | none => []
        | some (mid, rest) => endings.filterMap fun e =>
          match litI e rest with
          | some (fin, []) => some (token.take (k + 1), mid, fin)
          | _ => none) → q.1 = token.take (k + 1) := by
      intro k q hq
      simp only [List.mem_flatMap] at hq
      obtain ⟨l, -, hq⟩ := hq
      split at hq
      · simp at hq
      · simp only [List.mem_filterMap] at hq
        obtain ⟨le, -, hq⟩ := hq
        split at hq
        · simp only [Option.some.injEq] at hq
          rw [← hq]
        · simp at hq
    rw [List.pairwise_flatMap]
    constructor
    · intro k _
      refine List.Pairwise.imp_of_mem (R := fun _ _ => True) ?_ ?_
      · intro a b ha hb _
        rw [hlen k a ha, hlen k b hb]
      · exact List.pairwise_of_forall (fun _ _ => trivial)
    · rw [List.pairwise_reverse]
      refine List.Pairwise.imp ?_ List.pairwise_lt_range
      intro a b hab x hx y hy
      rw [hlen _ x hx, hlen _ y hy, List.length_take, List.length_take]
      omega
  cases hs : splitMatches token middles endings with
  | nil => rw [hs] at h; simp at h
  | cons a l =>
    rw [hs] at h hpw
    simp only [List.head?_cons, Option.some.injEq] at h
    subst h
    intro q hq
    rcases List.mem_cons.mp hq with rfl | hq
    · exact le_refl _
    · exact (List.pairwise_cons.mp hpw).1 q hq

/-! ### Replacement -/

theorem not_infix_cons {a b x y : Char} {t : Str} (h : ¬ (x = a ∧ y = b)) (ht : ¬ [a, b] <:+: y :: t) :
    ¬ [a, b] <:+: x :: y :: t := by
  intro hc
  rw [List.infix_cons_iff] at hc
  rcases hc with hc | hc
  · rw [List.cons_prefix_cons, List.cons_prefix_cons] at hc
    exact h ⟨hc.1.symm, hc.2.1.symm⟩
  · exact ht hc

theorem not_infix_single {a b x : Char} : ¬ [a, b] <:+: [x] := by
  intro h
  have := h.length_le
  simp at this

theorem replaced_cons {a b x y : Char} {new t u : Str} (h : ¬ (x = a ∧ y = b)) (hr : Spec.Replaced a b new (y :: t) u) :
    Spec.Replaced a b new (x :: y :: t) (x :: u) := by
  generalize hw : y :: t = w at hr
  cases hr with
  | done _ hn =>
    subst hw
    exact Spec.Replaced.done _ (not_infix_cons h hn)
  | step p t' u' hp hr' =>
    cases p with
    | nil =>
      have := Spec.Replaced.step [x] t' u' not_infix_single hr'
      simpa using this
    | cons y' p' =>
      simp only [List.cons_append, List.cons.injEq] at hw
      obtain ⟨rfl, -⟩ := hw
      exact Spec.Replaced.step (x :: y :: p') t' u' (not_infix_cons h hp) hr'

theorem replace2_spec (a b : Char) (new : Str) : ∀ t : Str, Spec.Replaced a b new t (replace2 a b new t)
  | [] => by
    simp only [replace2]
    exact Spec.Replaced.done _ (by simp)
  | [x] => by
    simp only [replace2]
    exact Spec.Replaced.done _ not_infix_single
  | x :: y :: t => by
    unfold replace2
    by_cases h : x = a ∧ y = b
    · rw [if_pos h]
      obtain ⟨rfl, rfl⟩ := h
      have := Spec.Replaced.step [] t _ (by simp) (replace2_spec x y new t)
      simpa using this
    · rw [if_neg h]
      exact replaced_cons h (replace2_spec a b new (y :: t))

theorem has2_iff (a b : Char) : ∀ t : Str, has2 a b t = true ↔ [a, b] <:+: t
  | [] => by simp [has2]
  | [x] => by
    simp only [has2, Bool.false_eq_true, false_iff]
    exact not_infix_single
  | x :: y :: t => by
    unfold has2
    rw [Bool.or_eq_true, decide_eq_true_eq, has2_iff a b (y :: t)]
    constructor
    · rintro (⟨rfl, rfl⟩ | h)
      · exact ⟨[], t, rfl⟩
      · exact h.trans (List.infix_cons (List.infix_refl _))
    · intro h
      by_contra hc
      rw [not_or] at hc
      exact not_infix_cons hc.1 hc.2 h

/-! ### One family of spellings -/

variable {R : Rounding} {log : ℚ → ℚ} {files : List (Int × Str)} {lm : LM}

/-- The families are written in lower-case letters. -/
def SpellingOk (f : Spec.Spelling) : Prop := (∀ l ∈ f.middles, LowerWord l) ∧ (∀ l ∈ f.endings, LowerWord l)

theorem alternation_spec (h : LM.load R log files = .ok lm) (f : Spec.Spelling) (hf : SpellingOk f) (token : Str)
    (cands : Str → Str → Str → Except PyErr (List Str)) (result : Str → Str → Str)
    (hc : ∀ s m e, f.Cut token s m e → cands s m e = .ok (f.ngrams s m e))
    (hr : ∀ s m e x, f.Cut token s m e → x ∈ f.alts m → result (s ++ x ++ f.tail e) e = s ++ x ++ e) :
    (∃ r, alternation lm token f.middles f.endings cands result = .ok r) ∧
    (∀ out, alternation lm token f.middles f.endings cands result = .ok (some out) →
      f.Respelled lm.contains lm.logp token out) ∧
    (alternation lm token f.middles f.endings cands result = .ok none →
      (∀ s m e, ¬ f.Cut token s m e) ∨ ∃ s m e, f.Cut token s m e ∧ ∀ g ∈ f.ngrams s m e, lm.contains g = false) := by
  have hcut : ∀ {s m e : Str}, f.Cut token s m e ↔ (s, m, e) ∈ splitMatches token f.middles f.endings ∧ 3 ≤ s.length := by
    intro s m e
    rw [mem_splitMatches hf.1 hf.2]
    constructor
    · intro c
      refine ⟨⟨c.append, ?_, ?_, c.middle, c.ending⟩, c.long⟩
      · intro e0
        have := c.long
        rw [e0] at this
        simp at this
      · intro x hx
        obtain ⟨p, h1, h2, h3⟩ := c.letters x hx
        exact isLetterI_of h1 h2 h3
    · rintro ⟨⟨h1, -, h2, h3, h4⟩, h5⟩
      exact ⟨h1, fun c hcs => isLetterI_iff (h2 c hcs), h5, h3, h4⟩
  unfold alternation
  cases hst : splitToken token f.middles f.endings with
  | none =>
    refine ⟨⟨_, rfl⟩, fun out ho => by simp at ho, fun _ => Or.inl ?_⟩
    intro s m e hcs
    obtain ⟨h1, h2⟩ := hcut.mp hcs
    unfold splitToken at hst
    cases hh : (splitMatches token f.middles f.endings).head? with
    | none =>
      rw [List.head?_eq_none_iff] at hh
      rw [hh] at h1
      simp at h1
    | some r =>
      have := splitMatches_head hh _ h1
      rw [hh] at hst
      simp only [ite_eq_right_iff, reduceCtorEq, imp_false, not_lt] at hst
      simp only at this
      omega
  | some r =>
    obtain ⟨s, m, e⟩ := r
    have hh : (splitMatches token f.middles f.endings).head? = some (s, m, e) := by
      unfold splitToken at hst
      split at hst
      · rename_i r hr'
        by_cases hl : r.1.length > 1
        · rw [if_pos hl, Option.some.injEq] at hst
          rw [hr', hst]
        · rw [if_neg hl] at hst
          simp at hst
      · simp at hst
    have hmem : (s, m, e) ∈ splitMatches token f.middles f.endings := List.mem_of_mem_head? hh
    simp only
    by_cases hl : s.length > 2
    · rw [if_pos hl]
      have hcs : f.Cut token s m e := hcut.mpr ⟨hmem, hl⟩
      simp only [hc s m e hcs, bind, Except.bind]
      obtain ⟨⟨b, hb⟩, hnone, hsome⟩ := Props.C29_best_ngram h (f.ngrams s m e)
      rw [hb]
      cases b with
      | none =>
        refine ⟨⟨_, rfl⟩, fun out ho => by simp [pure, Except.pure] at ho, fun _ => Or.inr ⟨s, m, e, hcs, hnone.mp hb⟩⟩
      | some b =>
        refine ⟨⟨_, rfl⟩, fun out ho => ?_, fun hn => by simp [pure, Except.pure] at hn⟩
        simp only [pure, Except.pure, Except.ok.injEq, Option.some.injEq] at ho
        obtain ⟨hk, hmax⟩ := hsome b hb
        obtain ⟨pre, post, hsplit, -, -⟩ := hmax
        have hbm : b ∈ f.ngrams s m e := by rw [hsplit]; simp
        obtain ⟨x, hx, hbx⟩ := List.mem_map.mp hbm
        subst hbx
        obtain ⟨-, hmax⟩ := hsome _ hb
        refine ⟨s, m, e, x, hcs, hx, ?_, hk, hmax⟩
        rw [← ho, hr s m e x hcs hx]
    · rw [if_neg hl]
      refine ⟨⟨_, rfl⟩, fun out ho => by simp at ho, fun _ => Or.inl ?_⟩
      intro s' m' e' hcs'
      obtain ⟨h1, h2⟩ := hcut.mp hcs'
      have := splitMatches_head hh _ h1
      simp only at this
      omega

theorem ligature_spec (h : LM.load R log files = .ok lm) (token : Str) (a : Char) :
    (∃ r, ligature lm token a 'e' = .ok r) ∧
    (∀ out, ligature lm token a 'e' = .ok (some out) → Spec.Ligature a lm.contains lm.logp token out) ∧
    (ligature lm token a 'e' = .ok none →
      ¬ (5 ≤ token.length ∧ [a, 'e'] <:+: token) ∨
        ∃ u, Spec.Replaced a 'e' ['e'] token u ∧ lm.contains u = false ∧ lm.contains token = false) := by
  unfold ligature
  by_cases hc : token.length > 4 ∧ [a, 'e'] <:+: token
  · rw [if_pos ⟨hc.1, (has2_iff _ _ _).mpr hc.2⟩]
    obtain ⟨⟨b, hb⟩, hnone, hsome⟩ := Props.C29_best_ngram h [replace2 a 'e' ['e'] token, token]
    refine ⟨⟨b, hb⟩, fun out ho => ?_, fun hn => Or.inr ⟨_, replace2_spec a 'e' ['e'] token, ?_⟩⟩
    · obtain ⟨hk, hmax⟩ := hsome out ho
      exact ⟨hc.1, hc.2, _, replace2_spec a 'e' ['e'] token, hk, hmax⟩
    · have := hnone.mp hn
      exact ⟨this _ (by simp), this _ (by simp)⟩
  · rw [if_neg (fun hk => hc ⟨hk.1, (has2_iff _ _ _).mp hk.2⟩)]
    exact ⟨⟨_, rfl⟩, fun out ho => by simp at ho, fun _ => Or.inl hc⟩

theorem firstSome_ok {α} (d : α) : ∀ l : List (Except PyErr (Option α)), (∀ x ∈ l, ∃ r, x = .ok r) →
    ((∀ x ∈ l, x = .ok none) ∧ firstSome d l = .ok d) ∨ ∃ out, .ok (some out) ∈ l ∧ firstSome d l = .ok out
  | [], _ => Or.inl ⟨by simp, rfl⟩
  | x :: l, h => by
    obtain ⟨r, rfl⟩ := h x (by simp)
    cases r with
    | some out => exact Or.inr ⟨out, by simp, rfl⟩
    | none =>
      have e : firstSome d (.ok none :: l) = firstSome d l := rfl
      rw [e]
      rcases firstSome_ok d l (fun y hy => h y (List.mem_cons_of_mem _ hy)) with ⟨h1, h2⟩ | ⟨out, h1, h2⟩
      · exact Or.inl ⟨by simpa using h1, h2⟩
      · exact Or.inr ⟨out, List.mem_cons_of_mem _ h1, h2⟩

end Model
