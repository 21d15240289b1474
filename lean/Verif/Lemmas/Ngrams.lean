import Verif.Model.Ngrams
import Verif.Spec.Ngrams
import Verif.Lemmas.Mutables
import Verif.Lemmas.Text
import Mathlib.Tactic.IntervalCases

namespace Model
open Py

/-! ### Strings -/

theorem join_eq_intercalate (sep : Str) (l : List Str) : join sep l = List.intercalate sep l := by
  induction l with
  | nil => rfl
  | cons x l ih =>
    cases l with
    | nil => simp [join, List.intercalate]
    | cons y l => rw [join, ih]; simp [List.intercalate]

theorem Char_le_iff (a b : Char) : a ≤ b ↔ a.toNat ≤ b.toNat := by
  rw [Char.le_def, UInt32.le_iff_toNat_le]; rfl

theorem isUpper_iff (c : Char) : c.isUpper = true ↔ 65 ≤ c.toNat ∧ c.toNat ≤ 90 := by
  have h1 : ('A' ≤ c) ↔ 65 ≤ c.toNat := Char_le_iff _ _
  have h2 : (c ≤ 'Z') ↔ c.toNat ≤ 90 := Char_le_iff _ _
  rw [← h1, ← h2]
  unfold Char.isUpper
  rw [decide_eq_true_eq]
  exact Iff.rfl

theorem isLower_iff (c : Char) : c.isLower = true ↔ 97 ≤ c.toNat ∧ c.toNat ≤ 122 := by
  have h1 : ('a' ≤ c) ↔ 97 ≤ c.toNat := Char_le_iff _ _
  have h2 : (c ≤ 'z') ↔ c.toNat ≤ 122 := Char_le_iff _ _
  rw [← h1, ← h2]
  unfold Char.isLower
  rw [Bool.and_eq_true, decide_eq_true_eq, decide_eq_true_eq]
  exact Iff.rfl

theorem isAlpha_iff (c : Char) : c.isAlpha = true ↔
    (65 ≤ c.toNat ∧ c.toNat ≤ 90) ∨ (97 ≤ c.toNat ∧ c.toNat ≤ 122) := by
  rw [← isUpper_iff, ← isLower_iff]
  unfold Char.isAlpha
  rw [Bool.or_eq_true]

theorem isAsciiLetter_eq (c : Char) : isAsciiLetter c = c.isAlpha := by
  rw [Bool.eq_iff_iff, isAlpha_iff]
  have h1 : ('A' ≤ c) ↔ 65 ≤ c.toNat := Char_le_iff _ _
  have h2 : (c ≤ 'Z') ↔ c.toNat ≤ 90 := Char_le_iff _ _
  have h3 : ('a' ≤ c) ↔ 97 ≤ c.toNat := Char_le_iff _ _
  have h4 : (c ≤ 'z') ↔ c.toNat ≤ 122 := Char_le_iff _ _
  unfold isAsciiLetter
  rw [Bool.or_eq_true, Bool.and_eq_true, Bool.and_eq_true, decide_eq_true_eq, decide_eq_true_eq, decide_eq_true_eq,
    decide_eq_true_eq, h1, h2, h3, h4]
  tauto

theorem toNat_ofNat_small {n : Nat} (h : n < 0xd800) : (Char.ofNat n).toNat = n := by
  have hv : n.isValidChar := Or.inl h
  unfold Char.ofNat
  rw [dif_pos hv]
  rfl

theorem lowerAscii_eq (c : Char) : lowerAscii c = c.toLower := by
  unfold lowerAscii Char.toLower
  have h : ('A' ≤ c ∧ c ≤ 'Z') ↔ (c.val ≥ 'A'.val ∧ c.val ≤ 'Z'.val) := Iff.rfl
  by_cases hc : c.val ≥ 'A'.val ∧ c.val ≤ 'Z'.val
  · rw [if_pos (h.mpr hc), dif_pos hc]
    apply Char.ext
    have h2 : c.toNat ≤ 90 := by
      have := hc.2; rw [UInt32.le_iff_toNat_le] at this; exact this
    apply UInt32.toNat_inj.mp
    have h3 : (Char.ofNat (c.toNat + 32)).toNat = c.toNat + 32 := toNat_ofNat_small (by omega)
    show (Char.ofNat (c.toNat + 32)).toNat = _
    rw [h3]
    have h4 : c.val.toNat = c.toNat := rfl
    simp only [UInt32.toNat_add, UInt32.toNat_sub, h4]
    have : 'a'.val.toNat = 97 := rfl
    have : 'A'.val.toNat = 65 := rfl
    omega
  · rw [if_neg (fun e => hc (h.mp e)), dif_neg hc]

theorem mem_uppercaseLetters (c : Char) : c ∈ uppercaseLetters ↔ c.isUpper = true := by
  constructor
  · have : ∀ c ∈ uppercaseLetters, c.isUpper = true := by decide
    exact this c
  · intro h
    rw [isUpper_iff] at h
    obtain ⟨h1, h2⟩ := h
    have : c = Char.ofNat c.toNat := (Char.ofNat_toNat c).symm
    generalize c.toNat = n at *
    subst this
    interval_cases n <;> decide

theorem validNgramToken_eq (t : Str) : validNgramToken t = .ok (decide (Spec.PlainWord t)) := by
  unfold validNgramToken
  cases t with
  | nil => simp [Spec.PlainWord]
  | cons c t =>
    by_cases hI : c :: t = c!"I"
    · rw [if_neg (by simp), if_pos hI]
      congr 1
      symm
      rw [decide_eq_true_eq]
      exact Or.inl hI
    · rw [if_neg (by simp), if_neg hI]
      have : startsWithUppercaseLetter (c :: t) = .ok (decide (c ∈ uppercaseLetters)) := by
        simp [startsWithUppercaseLetter, index, bind, Except.bind, pure, Except.pure]
      rw [this]
      show Except.ok _ = Except.ok _
      congr 1
      rw [Bool.eq_iff_iff, decide_eq_true_eq, Bool.not_eq_true', Bool.or_eq_false_iff, Bool.not_eq_false',
        decide_eq_false_iff_not, mem_uppercaseLetters]
      unfold hasOnlyLetters Spec.PlainWord
      rw [List.isEmpty_cons, Bool.not_false, Bool.true_and, List.all_eq_true]
      simp only [isAsciiLetter_eq, Bool.not_eq_true]
      constructor
      · rintro ⟨h1, h2⟩
        refine Or.inr ⟨by simp, h1, ?_⟩
        intro d hd
        cases hd
        exact h2
      · rintro (h | ⟨_, h1, h2⟩)
        · exact absurd h hI
        · exact ⟨h1, h2 c rfl⟩

theorem mapM_ok {α β ε} (f : α → Except ε β) (g : α → β) : ∀ (l : List α), (∀ x ∈ l, f x = .ok (g x)) →
    l.mapM f = .ok (l.map g)
  | [], _ => rfl
  | x :: l, h => by
    rw [List.mapM_cons, h x (by simp), mapM_ok f g l fun y hy => h y (by simp [hy])]
    rfl

theorem filterE_ok {α} (f : α → Except PyErr Bool) (g : α → Bool) : ∀ (l : List α), (∀ x ∈ l, f x = .ok (g x)) →
    filterE f l = .ok (l.filter g)
  | [], _ => rfl
  | x :: l, h => by
    rw [filterE, h x (by simp), filterE_ok f g l fun y hy => h y (by simp [hy])]
    cases hx : g x <;> simp [bind, Except.bind, pure, Except.pure, hx]

theorem validTokens_eq (w : List Str) : validTokens w = .ok (decide (∀ t ∈ w, Spec.PlainWord t)) := by
  unfold validTokens
  rw [mapM_ok _ _ w fun x _ => validNgramToken_eq x]
  show Except.ok _ = Except.ok _
  congr 1
  rw [Bool.eq_iff_iff, List.all_eq_true, decide_eq_true_eq]
  simp only [List.mem_map]
  constructor
  · intro h t ht
    have := h _ ⟨t, ht, rfl⟩
    simpa using this
  · rintro h _ ⟨t, ht, rfl⟩
    simpa using h t ht

/-! ### Windows -/

theorem zipStarAux_drops {α} (l : List α) (n : Nat) : ∀ (k j : Nat), l.length - j ≤ k → 0 < n →
    zipStarAux k ((List.range n).map fun i => l.drop (j + i)) =
      (List.range (l.length + 1 - n - j)).map fun m => (l.drop (j + m)).take n
  | 0, j, hk, hn => by
    have : l.length + 1 - n - j = 0 := by omega
    rw [this]; rfl
  | k + 1, j, hk, hn => by
    rw [zipStarAux]
    have hall : (((List.range n).map fun i => l.drop (j + i)).all fun l => !l.isEmpty) = decide (j + n ≤ l.length) := by
      rw [Bool.eq_iff_iff, List.all_eq_true, decide_eq_true_eq]
      simp only [List.mem_map, List.mem_range, forall_exists_index, and_imp, forall_apply_eq_imp_iff₂,
        Bool.not_eq_true', List.isEmpty_eq_false_iff, ne_eq, List.drop_eq_nil_iff, not_le]
      constructor
      · intro h; have := h (n - 1) (by omega); omega
      · intro h i hi; omega
    rw [hall]
    by_cases h : j + n ≤ l.length
    · have hs : l.length + 1 - n - j = (l.length + 1 - n - (j + 1)) + 1 := by omega
      rw [if_pos (by simpa using h), hs, List.range_succ_eq_map, List.map_cons]
      congr 1
      · rw [List.filterMap_map]
        have : (List.range n).filterMap (List.head? ∘ fun i => l.drop (j + i)) =
            (List.range n).filterMap fun i => (l.drop j)[i]? := by
          apply List.filterMap_congr
          intro i _
          simp [List.head?_drop]
        rw [this, Nat.add_zero]
        have hlen : n ≤ (l.drop j).length := by rw [List.length_drop]; omega
        generalize l.drop j = m at *
        clear this hall hs h hk hn
        induction n with
        | zero => simp
        | succ n ih =>
          rw [List.range_succ, List.filterMap_append, ih (by omega), List.take_add_one]
          rw [List.filterMap_cons]
          cases m[n]? <;> rfl
      · rw [List.map_map]
        have e : (List.range n).map (List.tail ∘ fun i => l.drop (j + i)) =
            (List.range n).map fun i => l.drop (j + 1 + i) := by
          apply List.map_congr_left
          intro i _
          simp [Nat.add_right_comm]
        rw [e, zipStarAux_drops l n k (j + 1) (by omega) hn, List.map_map]
        apply List.map_congr_left
        intro m _
        simp [Nat.add_assoc, Nat.add_comm 1 m]
    · rw [if_neg (by simpa using h)]
      have : l.length + 1 - n - j = 0 := by omega
      rw [this]; rfl

theorem slideWindow_eq {α} (l : List α) {n : Nat} (hn : 0 < n) : slideWindow l n = Spec.windows n l := by
  unfold slideWindow Spec.windows
  have : ((List.range n).map fun i : Nat => sliceFrom l (i : Int)) = (List.range n).map fun i => l.drop (0 + i) := by
    apply List.map_congr_left
    intro i _
    rw [sliceFrom_nat, Nat.zero_add]
  rw [this]
  have h2 := zipStarAux_drops l n l.length 0 (by omega) hn
  rw [Nat.sub_zero] at h2
  simp only [Nat.zero_add] at h2 ⊢
  obtain ⟨n, rfl⟩ : ∃ m, n = m + 1 := ⟨n - 1, by omega⟩
  rw [← h2]
  rw [List.range_succ_eq_map, List.map_cons]
  rfl

theorem windows_one {α} (l : List α) : Spec.windows 1 l = l.map fun x => [x] := by
  apply List.ext_getElem
  · simp [Spec.windows]
  · intro i h1 h2
    simp only [Spec.windows, List.getElem_map, List.getElem_range]
    rw [List.length_map] at h2
    rw [List.drop_eq_getElem_cons h2, List.take_succ_cons, List.take_zero]

theorem windowText_eq (w : List Str) : (join c!" " w).map lowerAscii = Spec.windowText w := by
  rw [join_eq_intercalate]
  unfold Spec.windowText
  congr 1
  funext c
  exact lowerAscii_eq c

theorem sentenceNgrams_eq (l : List Str) {n : Nat} (hn : 0 < n) : sentenceNgrams l n =
    .ok (((Spec.windows n l).filter fun w => ∀ t ∈ w, Spec.PlainWord t).map Spec.windowText) := by
  unfold sentenceNgrams
  have : (if n = 1 then l.map (fun t => [t]) else slideWindow l n) = Spec.windows n l := by
    split
    · subst n; rw [windows_one]
    · exact slideWindow_eq l hn
  simp only [this]
  rw [filterE_ok _ _ _ fun w _ => validTokens_eq w]
  simp only [bind, Except.bind, pure, Except.pure, List.map_map]
  congr 2
  funext w
  exact windowText_eq w

theorem extractNgrams_eq (ls : List (List Str)) {n : Nat} (hn : 0 < n) :
    extractNgrams ls n = .ok (Spec.ngramTexts n ls) := by
  unfold extractNgrams Spec.ngramTexts
  rw [mapM_ok _ _ ls fun l _ => sentenceNgrams_eq l hn]
  rfl

/-! ### The store -/

/-- The store holding the texts of a list with their number of occurrences. -/
def storeOf (texts : List Str) : Store :=
  (Spec.distinctInOrder texts).map fun t => (t, { text := t, count := texts.count t })

theorem mem_distinctInOrder {α} [DecidableEq α] {l : List α} {x : α} : x ∈ Spec.distinctInOrder l ↔ x ∈ l := by
  simp [Spec.distinctInOrder]

theorem nodup_distinctInOrder {α} [DecidableEq α] (l : List α) : (Spec.distinctInOrder l).Nodup := by
  unfold Spec.distinctInOrder
  rw [List.nodup_reverse]
  exact List.nodup_dedup _

theorem distinctInOrder_concat {α} [DecidableEq α] (l : List α) (x : α) :
    Spec.distinctInOrder (l ++ [x]) = if x ∈ l then Spec.distinctInOrder l else Spec.distinctInOrder l ++ [x] := by
  unfold Spec.distinctInOrder
  rw [List.reverse_append, List.reverse_singleton, List.singleton_append]
  split
  · rw [List.dedup_cons_of_mem (by simpa)]
  · rw [List.dedup_cons_of_notMem (by simpa), List.reverse_cons]

theorem keys_storeOf (texts : List Str) : Dict.keys (storeOf texts) = Spec.distinctInOrder texts := by
  unfold storeOf Dict.keys
  rw [List.map_map]
  exact List.map_id _

theorem wf_storeOf (texts : List Str) : Dict.Wf (storeOf texts) := by
  unfold Dict.Wf
  rw [keys_storeOf]
  exact nodup_distinctInOrder _

theorem get?_storeOf (texts : List Str) (t : Str) : Dict.get? (storeOf texts) t =
    if t ∈ texts then some { text := t, count := texts.count t } else none := by
  split
  · rename_i h
    apply Dict.get?_of_mem (wf_storeOf texts)
    exact List.mem_map.mpr ⟨t, mem_distinctInOrder.mpr h, rfl⟩
  · rename_i h
    rw [Dict.get?_eq_none_iff, keys_storeOf, mem_distinctInOrder]
    exact h

theorem dict_set_map {κ ν} [DecidableEq κ] (l : List κ) (f : κ → ν) (k : κ) (v : ν) (hl : l.Nodup) (hk : k ∈ l) :
    Dict.set (l.map fun x => (x, f x)) k v = l.map fun x => (x, if x = k then v else f x) := by
  induction l with
  | nil => simp at hk
  | cons x l ih =>
    rw [List.nodup_cons] at hl
    rw [List.map_cons, Dict.set, List.map_cons]
    by_cases h : x = k
    · subst h
      rw [if_pos rfl, if_pos rfl]
      congr 1
      apply List.map_congr_left
      intro y hy
      rw [if_neg]
      rintro rfl
      exact hl.1 hy
    · rw [if_neg h, if_neg h, ih hl.2 (by simpa [Ne.symm h] using hk)]

theorem makeNgram_storeOf (texts : List Str) (t : Str) :
    makeNgram (storeOf texts) t = storeOf (texts ++ [t]) := by
  unfold makeNgram
  rw [get?_storeOf]
  by_cases h : t ∈ texts
  · rw [if_pos h]
    show Dict.set (storeOf texts) t _ = _
    unfold storeOf
    rw [dict_set_map _ _ _ _ (nodup_distinctInOrder _) (mem_distinctInOrder.mpr h), distinctInOrder_concat, if_pos h]
    apply List.map_congr_left
    intro x _
    by_cases hx : x = t
    · subst hx; simp
    · simp [hx, Ne.symm hx]
  · rw [if_neg h]
    show Dict.set (storeOf texts) t _ = _
    rw [Dict.set_of_not_mem (by rw [keys_storeOf, mem_distinctInOrder]; exact h)]
    unfold storeOf
    rw [distinctInOrder_concat, if_neg h, List.map_append]
    congr 1
    · apply List.map_congr_left
      intro x hx
      have : x ≠ t := by rintro rfl; exact h (mem_distinctInOrder.mp hx)
      simp [Ne.symm this]
    · simp [List.count_eq_zero_of_not_mem h]

theorem foldl_makeNgram (texts more : List Str) :
    more.foldl makeNgram (storeOf texts) = storeOf (texts ++ more) := by
  induction more generalizing texts with
  | nil => simp
  | cons x more ih => rw [List.foldl_cons, makeNgram_storeOf, ih]; simp

/-! ### The builder -/

theorem foldlM_ok {α β ε} (f : β → α → Except ε β) (g : β → α → β) : ∀ (l : List α) (b : β),
    (∀ b, ∀ x ∈ l, f b x = .ok (g b x)) → l.foldlM f b = .ok (l.foldl g b)
  | [], b, _ => rfl
  | x :: l, b, h => by
    rw [List.foldlM_cons, h b x (by simp)]
    exact foldlM_ok f g l _ fun b y hy => h b y (by simp [hy])

theorem addText_eq (N : Nat) (texts : List Str) (sents : List (List Str)) : addText N (storeOf texts) sents =
    .ok (storeOf (texts ++ (List.range N).flatMap fun n => Spec.ngramTexts (n + 1) sents)) := by
  unfold addText
  rw [foldlM_ok _ (fun s n => (Spec.ngramTexts (n + 1) sents).foldl makeNgram s)]
  · congr 1
    generalize List.range N = l
    induction l generalizing texts with
    | nil => simp
    | cons n l ih => rw [List.foldl_cons, foldl_makeNgram, ih]; simp
  · intro b n _
    rw [extractNgrams_eq sents (Nat.succ_pos n)]
    rfl

theorem addTexts_eq (N : Nat) (texts : List Str) (docs : List (List (List Str))) :
    docs.foldlM (addText N) (storeOf texts) = .ok (storeOf (texts ++ Spec.corpusTexts N docs)) := by
  induction docs generalizing texts with
  | nil => simp [Spec.corpusTexts]; rfl
  | cons d docs ih =>
    rw [List.foldlM_cons, addText_eq]
    show docs.foldlM (addText N) _ = _
    rw [ih]
    simp [Spec.corpusTexts]

theorem readTexts_eq {T} (sentencize : T → Except PyErr (List (List Str))) (N p : Nat) (hp : 0 < p) :
    ∀ (fuel : Nat) (iter : List T) (texts : List Str), iter.length / p < fuel →
    readTexts sentencize N p fuel iter (storeOf texts) =
      (iter.mapM sentencize).map fun docs => some (storeOf (texts ++ Spec.corpusTexts N docs))
  | 0, _, _, h => absurd h (Nat.not_lt_zero _)
  | fuel + 1, iter, texts, h => by
    rw [readTexts]
    simp only [Nat.ne_of_gt hp, if_false]
    by_cases hlt : iter.length < p
    · rw [List.take_of_length_le (le_of_lt hlt)]
      cases iter.mapM sentencize with
      | error e => rfl
      | ok docs =>
        show ((docs.foldlM (addText N) (storeOf texts)).bind _) = _
        rw [addTexts_eq]
        simp [Except.bind, hlt, Except.map]
    · have hd : (iter.drop p).length / p < fuel := by
        rw [List.length_drop]
        have : iter.length / p = (iter.length - p) / p + 1 := by
          rw [← Nat.sub_add_cancel (not_lt.mp hlt), Nat.add_div_right _ hp, Nat.sub_add_cancel (not_lt.mp hlt)]
        omega
      have hsplit : iter.mapM sentencize =
          (do let a ← (iter.take p).mapM sentencize; let b ← (iter.drop p).mapM sentencize; pure (a ++ b)) := by
        rw [← List.mapM_append, List.take_append_drop]
      rw [hsplit]
      cases (iter.take p).mapM sentencize with
      | error e => rfl
      | ok docs =>
        show ((docs.foldlM (addText N) (storeOf texts)).bind _) = _
        rw [addTexts_eq]
        simp only [Except.bind, hlt, decide_false, Bool.false_eq_true, if_false]
        rw [readTexts_eq sentencize N p hp fuel _ _ hd]
        show _ = Except.map _ (Except.bind _ _)
        cases (iter.drop p).mapM sentencize with
        | error e => rfl
        | ok docs' =>
          show Except.ok (some (storeOf (texts ++ Spec.corpusTexts N docs ++ Spec.corpusTexts N docs'))) =
            Except.ok (some (storeOf (texts ++ Spec.corpusTexts N (docs ++ docs'))))
          unfold Spec.corpusTexts
          rw [List.flatMap_append, List.append_assoc]

/-! ### Words and windows -/

theorem splitWsAux_word : ∀ (w rest cur : Str), (∀ c ∈ w, isSpace c = false) →
    splitWsAux (w ++ rest) cur = splitWsAux rest (w.reverse ++ cur)
  | [], _, _, _ => rfl
  | c :: w, rest, cur, h => by
    rw [List.cons_append, splitWsAux, if_neg (by simp [h c (by simp)]),
      splitWsAux_word w rest _ fun d hd => h d (by simp [hd])]
    simp

/-- `' '.join(words).split()` -/
theorem splitWs_join : ∀ (ws : List Str), (∀ w ∈ ws, w ≠ [] ∧ ∀ c ∈ w, isSpace c = false) →
    splitWs (join c!" " ws) = ws
  | [], _ => rfl
  | [w], h => by
    obtain ⟨h1, h2⟩ := h w (by simp)
    have := splitWsAux_word w [] [] h2
    rw [List.append_nil] at this
    rw [join, splitWs, this]
    simp [splitWsAux, h1]
  | w :: v :: ws, h => by
    obtain ⟨h1, h2⟩ := h w (by simp)
    rw [join, splitWs, List.append_assoc, splitWsAux_word w _ _ h2]
    have hs : isSpace ' ' = true := by decide
    simp only [List.append_nil, List.singleton_append, splitWsAux, hs, if_true, List.isEmpty_reverse]
    rw [if_neg (by simpa using h1), List.reverse_reverse]
    congr 1
    exact splitWs_join (v :: ws) fun x hx => h x (by simp [hx])

/-- A lower-cased n-gram token: at least one letter, ASCII letters only. -/
def Alphabetic (t : Str) : Prop := t ≠ [] ∧ ∀ c ∈ t, c.isAlpha = true

theorem isSpace_of_isAlpha {c : Char} (h : c.isAlpha = true) : isSpace c = false := by
  rw [isAlpha_iff] at h
  unfold isSpace
  simp only [Bool.or_eq_false_iff, Bool.and_eq_false_iff, decide_eq_false_iff_not, beq_eq_false_iff_ne]
  omega

theorem splitWs_join_alphabetic {ws : List Str} (h : ∀ w ∈ ws, Alphabetic w) : splitWs (join c!" " ws) = ws :=
  splitWs_join ws fun w hw => ⟨(h w hw).1, fun c hc => isSpace_of_isAlpha ((h w hw).2 c hc)⟩

theorem join_injective {ws vs : List Str} (hw : ∀ w ∈ ws, Alphabetic w) (hv : ∀ w ∈ vs, Alphabetic w)
    (h : join c!" " ws = join c!" " vs) : ws = vs := by
  rw [← splitWs_join_alphabetic hw, h, splitWs_join_alphabetic hv]

/-- Lower-casing a word. -/
def lowerWord (t : Str) : Str := t.map Char.toLower

theorem isAlpha_toLower {c : Char} (h : c.isAlpha = true) : c.toLower.isAlpha = true := by
  rw [← lowerAscii_eq]
  unfold lowerAscii
  split
  · rename_i hc
    have h1 : 65 ≤ c.toNat := (Char_le_iff _ _).mp hc.1
    have h2 : c.toNat ≤ 90 := (Char_le_iff _ _).mp hc.2
    rw [isAlpha_iff, toNat_ofNat_small (by omega)]
    omega
  · exact h

theorem PlainWord.alphabetic {t : Str} (h : Spec.PlainWord t) : Alphabetic (lowerWord t) := by
  rcases h with rfl | ⟨h1, h2, _⟩
  · exact ⟨by decide, by decide⟩
  · refine ⟨by simpa [lowerWord] using h1, ?_⟩
    intro c hc
    obtain ⟨d, hd, rfl⟩ := List.mem_map.mp hc
    exact isAlpha_toLower (h2 d hd)

theorem windowText_join (w : List Str) : Spec.windowText w = join c!" " (w.map lowerWord) := by
  unfold Spec.windowText
  rw [← join_eq_intercalate]
  have hs : Char.toLower ' ' = ' ' := by decide
  induction w with
  | nil => rfl
  | cons x w ih =>
    cases w with
    | nil => simp [join, lowerWord]
    | cons y w =>
      rw [join, List.map_append, List.map_append, ih]
      simp [join, lowerWord, hs]

theorem alphabetic_of_plain {w : List Str} (h : ∀ t ∈ w, Spec.PlainWord t) : ∀ t ∈ w.map lowerWord, Alphabetic t := by
  intro t ht
  obtain ⟨u, hu, rfl⟩ := List.mem_map.mp ht
  exact PlainWord.alphabetic (h u hu)

theorem tokens_windowText {w : List Str} (h : ∀ t ∈ w, Spec.PlainWord t) :
    splitWs (Spec.windowText w) = w.map lowerWord := by
  rw [windowText_join, splitWs_join_alphabetic (alphabetic_of_plain h)]

theorem mem_windows {α} {n : Nat} {l w : List α} (hn : 0 < n) :
    w ∈ Spec.windows n l ↔ w.length = n ∧ w <:+: l := by
  unfold Spec.windows
  simp only [List.mem_map, List.mem_range]
  constructor
  · rintro ⟨k, hk, rfl⟩
    refine ⟨by rw [List.length_take, List.length_drop]; omega, ?_⟩
    exact (List.take_prefix _ _).isInfix.trans (List.drop_suffix _ _).isInfix
  · rintro ⟨h1, ⟨a, b, rfl⟩⟩
    refine ⟨a.length, by simp only [List.length_append]; omega, ?_⟩
    rw [List.append_assoc, List.drop_left, ← h1, List.take_left]

theorem length_windows {α} {n : Nat} {l w : List α} (h : w ∈ Spec.windows n l) (hn : 0 < n) : w.length = n :=
  ((mem_windows hn).mp h).1

theorem mem_ngramTexts {n : Nat} {sents : List (List Str)} {t : Str} (hn : 0 < n) : t ∈ Spec.ngramTexts n sents ↔
    ∃ l ∈ sents, ∃ w, w.length = n ∧ w <:+: l ∧ (∀ x ∈ w, Spec.PlainWord x) ∧ Spec.windowText w = t := by
  unfold Spec.ngramTexts
  simp only [List.mem_flatMap, List.mem_map, List.mem_filter, decide_eq_true_eq, mem_windows hn, and_assoc]

theorem mem_corpusTexts {N : Nat} {docs : List (List (List Str))} {t : Str} : t ∈ Spec.corpusTexts N docs ↔
    ∃ sents ∈ docs, ∃ l ∈ sents, ∃ w, 0 < w.length ∧ w.length ≤ N ∧ w <:+: l ∧ (∀ x ∈ w, Spec.PlainWord x) ∧
      Spec.windowText w = t := by
  unfold Spec.corpusTexts
  simp only [List.mem_flatMap, List.mem_range, mem_ngramTexts (Nat.succ_pos _)]
  constructor
  · rintro ⟨d, hd, n, hn, l, hl, w, h1, h2⟩
    exact ⟨d, hd, l, hl, w, by omega, by omega, h2⟩
  · rintro ⟨d, hd, l, hl, w, h0, h1, h2⟩
    exact ⟨d, hd, w.length - 1, by omega, l, hl, w, by omega, h2⟩

/-! ### Counting windows -/

theorem countP_range_le {p q : Nat → Bool} {A B a : Nat} (h : ∀ k < A, p k = true → k + a < B ∧ q (k + a) = true) :
    (List.range A).countP p ≤ (List.range B).countP q := by
  rw [List.countP_eq_length_filter, List.countP_eq_length_filter]
  have hsub : (((List.range A).filter p).map (· + a)) ⊆ (List.range B).filter q := by
    intro x hx
    obtain ⟨k, hk, rfl⟩ := List.mem_map.mp hx
    rw [List.mem_filter, List.mem_range] at hk
    rw [List.mem_filter, List.mem_range]
    exact h k hk.1 hk.2
  have hnd : (((List.range A).filter p).map (· + a)).Nodup :=
    ((List.nodup_range).filter _).map (fun x y e => Nat.add_right_cancel e)
  have := (hnd.subperm hsub).length_le
  rwa [List.length_map] at this

theorem count_sentence_le (l : List Str) {pre part post : List Str} (hall : ∀ t ∈ pre ++ part ++ post, Alphabetic t)
    (hpart : part ≠ []) :
    (((Spec.windows (pre ++ part ++ post).length l).filter fun w => ∀ t ∈ w, Spec.PlainWord t).map
        Spec.windowText).count (join c!" " (pre ++ part ++ post)) ≤
    (((Spec.windows part.length l).filter fun w => ∀ t ∈ w, Spec.PlainWord t).map
        Spec.windowText).count (join c!" " part) := by
  rw [List.count, List.count, List.countP_map, List.countP_map, List.countP_filter, List.countP_filter]
  unfold Spec.windows
  rw [List.countP_map, List.countP_map]
  have hp : 0 < part.length := List.length_pos_iff.mpr hpart
  apply countP_range_le (a := pre.length)
  intro k hk
  simp only [Function.comp, Bool.and_eq_true, beq_iff_eq, decide_eq_true_eq]
  rintro ⟨h1, h2⟩
  set n := (pre ++ part ++ post).length with hn
  have hlen : n = pre.length + part.length + post.length := by simp [hn]; omega
  refine ⟨by omega, ?_⟩
  have hw : ((l.drop k).take n).map lowerWord = pre ++ part ++ post := by
    rw [windowText_join] at h1
    exact join_injective (alphabetic_of_plain h2) hall h1
  have hsub : (l.drop (k + pre.length)).take part.length = (((l.drop k).take n).drop pre.length).take part.length := by
    rw [List.drop_take, List.take_take, List.drop_drop]
    congr 1
    omega
  constructor
  · rw [windowText_join, hsub, List.map_take, List.map_drop, hw, List.append_assoc, List.drop_left, List.take_left]
  · intro t ht
    rw [hsub] at ht
    exact h2 t (List.mem_of_mem_drop (List.mem_of_mem_take ht))

theorem count_ngramTexts_le (sents : List (List Str)) {pre part post : List Str}
    (hall : ∀ t ∈ pre ++ part ++ post, Alphabetic t) (hpart : part ≠ []) :
    (Spec.ngramTexts (pre ++ part ++ post).length sents).count (join c!" " (pre ++ part ++ post)) ≤
    (Spec.ngramTexts part.length sents).count (join c!" " part) := by
  unfold Spec.ngramTexts
  induction sents with
  | nil => simp
  | cons l sents ih =>
    rw [List.flatMap_cons, List.flatMap_cons, List.count_append, List.count_append]
    exact Nat.add_le_add (count_sentence_le l hall hpart) ih

/-- Only windows of the right length have a given text. -/
theorem count_ngramTexts_ne (sents : List (List Str)) {ws : List Str} (hall : ∀ t ∈ ws, Alphabetic t) {n : Nat}
    (hn : 0 < n) (h : n ≠ ws.length) : (Spec.ngramTexts n sents).count (join c!" " ws) = 0 := by
  rw [List.count_eq_zero, mem_ngramTexts hn]
  rintro ⟨l, _, w, h1, _, h3, h4⟩
  rw [windowText_join] at h4
  have := join_injective (alphabetic_of_plain h3) hall h4
  have := congrArg List.length this
  rw [List.length_map] at this
  omega

theorem count_flatMap_range (N : Nat) (f : Nat → List Str) (t : Str) (m : Nat) (hm : m < N)
    (h : ∀ n, n ≠ m → (f n).count t = 0) : ((List.range N).flatMap f).count t = (f m).count t := by
  induction N with
  | zero => omega
  | succ N ih =>
    rw [List.range_succ, List.flatMap_append, List.count_append, List.flatMap_singleton]
    by_cases e : m = N
    · subst e
      have : ((List.range m).flatMap f).count t = 0 := by
        rw [List.count_eq_zero, List.mem_flatMap]
        rintro ⟨n, hn, ht⟩
        rw [List.mem_range] at hn
        exact absurd (List.count_eq_zero.mp (h n (by omega))) (fun e => e ht)
      rw [this, Nat.zero_add]
    · rw [ih (by omega), h N (Ne.symm e), Nat.add_zero]

theorem count_corpusTexts {N : Nat} (docs : List (List (List Str))) {ws : List Str} (hall : ∀ t ∈ ws, Alphabetic t)
    (h0 : 0 < ws.length) (h1 : ws.length ≤ N) : (Spec.corpusTexts N docs).count (join c!" " ws) =
      (docs.map fun sents => (Spec.ngramTexts ws.length sents).count (join c!" " ws)).sum := by
  unfold Spec.corpusTexts
  induction docs with
  | nil => rfl
  | cons d docs ih =>
    rw [List.flatMap_cons, List.count_append, ih, List.map_cons, List.sum_cons,
      count_flatMap_range N _ _ (ws.length - 1) (by omega)]
    · rw [Nat.sub_add_cancel h0]
    · intro n hn
      exact count_ngramTexts_ne d hall (Nat.succ_pos n) (by omega)

theorem count_corpus_le {N : Nat} (docs : List (List (List Str))) {pre part post : List Str}
    (hall : ∀ t ∈ pre ++ part ++ post, Alphabetic t) (hpart : part ≠ []) (hN : (pre ++ part ++ post).length ≤ N) :
    (Spec.corpusTexts N docs).count (join c!" " (pre ++ part ++ post)) ≤
    (Spec.corpusTexts N docs).count (join c!" " part) := by
  have hp : 0 < part.length := List.length_pos_iff.mpr hpart
  have hlen : (pre ++ part ++ post).length = pre.length + part.length + post.length := by simp; omega
  rw [count_corpusTexts docs hall (by omega) hN,
    count_corpusTexts docs (fun t ht => hall t (by simp [ht])) hp (by omega)]
  apply List.sum_le_sum
  intro d _
  exact count_ngramTexts_le d hall hpart

end Model
