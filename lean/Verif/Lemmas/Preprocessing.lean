import Verif.Model.Preprocessing
import Verif.Lemmas.Regex
import Verif.Lemmas.Normalization
import Verif.Spec.Preprocessing

namespace Model
open Py

/-! ### Every pattern of the code consumes at least one character -/

/-- All patterns of the preprocessing code. -/
def allPatterns : List Re :=
  tokSanitization.map Prod.fst ++ tokProtect ++ tokNoSplit.map Prod.fst ++ [tokAlwaysSplit.1] ++ tokNoSplitDot ++
    tokSplitDot.map Prod.fst ++ tokSegmentOff.map Prod.fst ++ tokRestore.map Prod.fst ++ tokReattach.map Prod.fst ++
    [reNewline, reQuote, reBracket, reMultiSpaces, reSentEnders] ++ sentSanitization.map Prod.fst

theorem allPatterns_consume : ∀ r ∈ allPatterns, 0 < r.minLen ∧ r.progress = true := by decide +kernel

/-! ### White space -/

theorem splitWsAux_sep {d : Char} (hd : isSpace d = true) (rest : Str) : ∀ (t cur : Str),
    splitWsAux (t ++ d :: rest) cur = splitWsAux t cur ++ splitWsAux rest []
  | [], cur => by
    by_cases h : cur.isEmpty = true <;> simp [splitWsAux, hd, h]
  | c :: t, cur => by
    simp only [List.cons_append, splitWsAux]
    by_cases hc : isSpace c = true
    · by_cases h : cur.isEmpty = true
      · simp [hc, h, splitWsAux_sep hd rest t]
      · simp [hc, h, splitWsAux_sep hd rest t]
    · simp [hc, splitWsAux_sep hd rest t]

theorem splitWs_sep {d : Char} (hd : isSpace d = true) (t rest : Str) :
    splitWs (t ++ d :: rest) = splitWs t ++ splitWs rest := splitWsAux_sep hd rest t []

theorem splitWs_spaces {t : Str} (h : ∀ c ∈ t, isSpace c = true) : splitWs t = [] := by
  induction t with
  | nil => rfl
  | cons c t ih =>
    have := splitWs_sep (h c (by simp)) [] t
    simp only [List.nil_append] at this
    rw [this, ih fun d hd => h d (by simp [hd])]
    rfl

theorem splitWs_append_spaces (t : Str) {u : Str} (h : ∀ c ∈ u, isSpace c = true) : splitWs (t ++ u) = splitWs t := by
  cases u with
  | nil => simp
  | cons d u =>
    rw [splitWs_sep (h d (by simp)), splitWs_spaces (t := u) fun c hc => h c (by simp [hc]), List.append_nil]

theorem splitWs_spaces_append (t : Str) {u : Str} (h : ∀ c ∈ u, isSpace c = true) : splitWs (u ++ t) = splitWs t := by
  induction u with
  | nil => rfl
  | cons d u ih =>
    have := splitWs_sep (h d (by simp)) [] (u ++ t)
    simp only [List.nil_append] at this
    rw [List.cons_append, this, ih fun c hc => h c (by simp [hc])]
    rfl

theorem takeWhile_isSpace {t : Str} {c : Char} (h : c ∈ t.takeWhile isSpace) : isSpace c = true :=
  List.all_eq_true.mp List.all_takeWhile c h

theorem splitWs_strip (t : Str) : splitWs (Py.strip t) = splitWs t := by
  unfold Py.strip
  set u := t.dropWhile isSpace with hu
  have h1 : splitWs u = splitWs t := by
    conv_rhs => rw [← List.takeWhile_append_dropWhile (p := isSpace) (l := t)]
    rw [splitWs_spaces_append]
    intro c hc
    exact takeWhile_isSpace hc
  have h2 : u = (u.reverse.dropWhile isSpace).reverse ++ (u.reverse.takeWhile isSpace).reverse := by
    rw [← List.reverse_append, List.takeWhile_append_dropWhile, List.reverse_reverse]
  rw [← h1]
  conv_rhs => rw [h2]
  rw [splitWs_append_spaces]
  intro c hc
  exact takeWhile_isSpace (List.mem_reverse.mp hc)

/-- Words joined by single blanks are single-spaced. -/
theorem singleSpaced_join (ws : List Str) (h : ∀ w ∈ ws, NoBlank w) : Spec.SingleSpaced (join c!" " ws) := by
  intro a c b e hc
  induction ws generalizing a with
  | nil => simp [join] at e
  | cons w ws ih =>
    have hw := h w (by simp)
    by_cases hn : ws = []
    · subst hn
      simp only [join] at e
      have : c ∈ w := by rw [e]; simp
      rw [hw.2 c this] at hc
      cases hc
    · rw [join_cons hn] at e
      have e' : w ++ ([' '] ++ join c!" " ws) = a ++ c :: b := by rw [← e]; simp
      rcases List.append_eq_append_iff.mp e' with ⟨a', ha, hb⟩ | ⟨c', ha, hb⟩
      · cases a' with
        | nil =>
          simp only [List.nil_append, List.singleton_append, List.cons.injEq] at hb
          obtain ⟨rfl, rfl⟩ := hb
          refine ⟨rfl, ?_, ?_⟩
          · rw [ha, List.append_nil]
            exact hw.1
          · obtain ⟨v, vs, rfl⟩ := List.exists_cons_of_ne_nil hn
            have hv := h v (by simp)
            obtain ⟨x, xs, rfl⟩ := List.exists_cons_of_ne_nil hv.1
            by_cases hvs : vs = []
            · subst hvs
              exact ⟨x, xs, rfl, hv.2 x (by simp)⟩
            · rw [join_cons hvs]
              exact ⟨x, xs ++ ([' '] ++ join c!" " vs), by simp, hv.2 x (by simp)⟩
        | cons x a' =>
          simp only [List.singleton_append, List.cons_append, List.cons.injEq] at hb
          obtain ⟨rfl, hb⟩ := hb
          obtain ⟨h1, h2, h3⟩ := ih (fun v hv => h v (by simp [hv])) a' hb
          exact ⟨h1, by rw [ha]; simp, h3⟩
      · cases c' with
        | nil =>
          simp only [List.nil_append, List.singleton_append, List.cons.injEq] at hb
          obtain ⟨rfl, rfl⟩ := hb
          refine ⟨rfl, ?_, ?_⟩
          · rw [List.append_nil] at ha
            rw [← ha]
            exact hw.1
          · obtain ⟨v, vs, rfl⟩ := List.exists_cons_of_ne_nil hn
            have hv := h v (by simp)
            obtain ⟨x, xs, rfl⟩ := List.exists_cons_of_ne_nil hv.1
            by_cases hvs : vs = []
            · subst hvs
              exact ⟨x, xs, rfl, hv.2 x (by simp)⟩
            · rw [join_cons hvs]
              exact ⟨x, xs ++ ([' '] ++ join c!" " vs), by simp, hv.2 x (by simp)⟩
        | cons x c' =>
          simp only [List.cons_append, List.cons.injEq] at hb
          obtain ⟨rfl, -⟩ := hb
          have : c ∈ w := by rw [ha]; simp
          rw [hw.2 c this] at hc
          cases hc

theorem splitWs_sanitize (db : CharDB) (rules : List SubRule) (text : Str) :
    splitWs (sanitize db rules text) = splitWs (subAll db rules (Py.strip text)) :=
  splitWs_join _ (splitWs_noBlank _)

/-! ### `str.replace` -/

theorem count_replaceFrom_le (p : Char → Bool) {old new : Str} (hnew : ∀ c ∈ new, p c = false) (n : Nat) (s : Str) :
    (replaceFrom old new n s).countP p ≤ s.countP p := by
  induction n generalizing s with
  | zero => exact Nat.le_refl _
  | succ n ih =>
    unfold replaceFrom
    split
    · rw [List.countP_append, List.countP_eq_zero.mpr fun c hc => by simp [hnew c hc], Nat.zero_add]
      exact (ih _).trans ((List.drop_sublist _ _).countP_le)
    · cases s with
      | nil => simp
      | cons c cs =>
        simp only [List.countP_cons]
        have := ih cs
        omega

theorem count_replaceFrom_lt (p : Char → Bool) {old new : Str} (hnew : ∀ c ∈ new, p c = false)
    (hold : ∃ c ∈ old, p c = true) (n : Nat) (s a b : Str) (hs : s = a ++ old ++ b) (hn : s.length ≤ n) :
    (replaceFrom old new n s).countP p < s.countP p := by
  induction n generalizing s a with
  | zero =>
    obtain ⟨c, hc, -⟩ := hold
    have : s = [] := List.length_eq_zero_iff.mp (by omega)
    subst this
    have : old = [] := by
      have := congrArg List.length hs
      simp only [List.length_nil, List.length_append] at this
      exact List.length_eq_zero_iff.mp (by omega)
    subst this
    cases hc
  | succ n ih =>
    unfold replaceFrom
    split
    · rename_i hp
      rw [List.isPrefixOf_iff_prefix] at hp
      obtain ⟨r, rfl⟩ := hp
      rw [List.countP_append, List.countP_eq_zero.mpr fun c hc => by simp [hnew c hc], Nat.zero_add, List.drop_left,
        List.countP_append]
      have h1 := count_replaceFrom_le p hnew n r (old := old)
      have h2 : 0 < old.countP p := List.countP_pos_iff.mpr hold
      omega
    · rename_i hp
      cases a with
      | nil =>
        exfalso
        apply hp
        rw [List.isPrefixOf_iff_prefix, hs]
        exact ⟨b, by simp⟩
      | cons c a =>
        subst hs
        simp only [List.cons_append, List.countP_cons]
        have := ih (a ++ old ++ b) a rfl (by simpa using hn)
        simp only [List.append_assoc] at this ⊢
        omega

/-! ### Termination of the protection loop -/

/-- The characters of which each protected text has at least one, and no key has any. -/
def isProtChar (c : Char) : Bool := c == '\'' || c == '.' || c == '(' || c == ')'

theorem protectKey_clean (i : Nat) : ∀ c ∈ protectKey i, isProtChar c = false := by
  intro c hc
  simp only [protectKey, List.mem_append, or_assoc] at hc
  rcases hc with hc | hc | hc
  · revert c; decide
  · have hd := natRepr_isDigit i c hc
    unfold isProtChar
    have key : ∀ d ∈ ['\'', '.', '(', ')'], d.isDigit = false := by decide
    have : ∀ d ∈ ['\'', '.', '(', ')'], c ≠ d := by
      rintro d hd' rfl
      rw [key _ hd'] at hd
      cases hd
    simp only [List.mem_cons, List.not_mem_nil, or_false, forall_eq_or_imp, forall_eq] at this
    simp [this]
  · revert c; decide

theorem tokProtect_needs : ∀ r ∈ tokProtect, r.needs isProtChar = true := by decide

theorem protectStep_count {db : CharDB} {r : Re} (hr : r ∈ tokProtect) {s s' : PState}
    (h : protectStep db r s = some s') : s'.text.countP isProtChar < s.text.countP isProtChar := by
  unfold protectStep at h
  rcases hm : r.search db s.text with _ | token
  · rw [hm] at h; cases h
  · rw [hm] at h
    simp only [Option.some.injEq] at h
    subst h
    obtain ⟨-, st, t, hrun, he, -, ht⟩ := Re.search_some hm
    obtain ⟨c, hc, hp⟩ := r.needs_run (tokProtect_needs r hr) _ _ _ hrun he
    exact count_replaceFrom_lt _ (protectKey_clean s.idx) ⟨c, hc, hp⟩ _ _ _ _ ht (Nat.le_refl _)

/-- Enough rounds: the loop ends, and more rounds do not change the result. -/
theorem protectLoop_some {db : CharDB} {r : Re} (hr : r ∈ tokProtect) (s : PState) :
    ∃ s', s'.text.countP isProtChar ≤ s.text.countP isProtChar ∧ r.search db s'.text = none ∧
      ∀ fuel, s.text.countP isProtChar < fuel → protectLoop db r fuel s = some s' := by
  induction hk : s.text.countP isProtChar using Nat.strong_induction_on generalizing s with
  | _ k ih =>
    rcases hstep : protectStep db r s with _ | s1
    · refine ⟨s, hk.le, ?_, ?_⟩
      · unfold protectStep at hstep
        rcases hm : r.search db s.text with _ | token
        · rfl
        · rw [hm] at hstep; cases hstep
      · intro fuel hf
        obtain ⟨f, rfl⟩ : ∃ f, fuel = f + 1 := ⟨fuel - 1, by omega⟩
        rw [protectLoop, hstep]
    · have hlt := protectStep_count hr hstep
      obtain ⟨s', h1, h2, h3⟩ := ih _ (hk ▸ hlt) s1 rfl
      refine ⟨s', by omega, h2, ?_⟩
      intro fuel hf
      obtain ⟨f, rfl⟩ : ∃ f, fuel = f + 1 := ⟨fuel - 1, by omega⟩
      rw [protectLoop, hstep]
      exact h3 f (by omega)

theorem protect_fold {db : CharDB} : ∀ (rs : List Re), (∀ r ∈ rs, r ∈ tokProtect) → ∀ (s : PState), ∃ s',
    ∀ fuel, s.text.countP isProtChar < fuel → rs.foldlM (fun s pat => protectLoop db pat fuel s) s = some s'
  | [], _, s => ⟨s, fun _ _ => rfl⟩
  | r :: rs, h, s => by
    obtain ⟨s1, h1, -, h2⟩ := protectLoop_some (db := db) (h r (by simp)) s
    obtain ⟨s', h3⟩ := protect_fold rs (fun r hr => h r (by simp [hr])) s1
    refine ⟨s', fun fuel hf => ?_⟩
    rw [List.foldlM_cons, h2 fuel hf]
    exact h3 fuel (by omega)

theorem protectText_some (db : CharDB) (text : Str) :
    ∃ p, ∀ fuel, text.length < fuel → protectText db fuel text = some p := by
  obtain ⟨p, h⟩ := protect_fold (db := db) tokProtect (fun _ h => h) ⟨[], text, 1⟩
  exact ⟨p, fun fuel hf => h fuel (lt_of_le_of_lt List.countP_le_length hf)⟩

/-- The final state of `__protect_text`. -/
theorem tokenize_eq (db : CharDB) {text : Str} (ht : text ≠ []) : ∃ p,
    (∀ fuel, (sanitize db tokSanitization text).length < fuel →
      protectText db fuel (sanitize db tokSanitization text) = some p) ∧
    (∀ fuel, (sanitize db tokSanitization text).length < fuel → tokenizeFuel db fuel text = some (tokenize db text)) ∧
    tokenize db text = splitWs (unprotect p.dict (segment db p.text)) := by
  obtain ⟨p, hp⟩ := protectText_some db (sanitize db tokSanitization text)
  have key : ∀ fuel, (sanitize db tokSanitization text).length < fuel →
      tokenizeFuel db fuel text = some (splitWs (unprotect p.dict (segment db p.text))) := by
    intro fuel hf
    unfold tokenizeFuel
    rw [if_neg (by simpa using ht), hp fuel hf]
  have h2 : tokenize db text = splitWs (unprotect p.dict (segment db p.text)) := by
    unfold tokenize
    rw [key _ (Nat.lt_succ_self _)]
    rfl
  exact ⟨p, hp, fun fuel hf => by rw [key fuel hf, h2], h2⟩

end Model
