import Verif.Model.LangModel
import Verif.Lemmas.Sort
import Verif.Lemmas.Text
import Verif.Lemmas.Ngrams
import Mathlib.Tactic.Linarith
import Mathlib.Tactic.NormNum
import Mathlib.Tactic.Ring
import Mathlib.Algebra.Order.Floor.Ring

/-! Writing and reading back the files of a language model. -/

namespace Model
open Py

/-! ### Decimal numerals -/

theorem digitChar_isDigit {d : Nat} (h : d < 10) : (Nat.digitChar d).isDigit = true := by
  have : ∀ d : Fin 10, (Nat.digitChar d.1).isDigit = true := by decide
  exact this ⟨d, h⟩

theorem length_fixedDigits : ∀ n m, (fixedDigits n m).length = n
  | 0, _ => rfl
  | n + 1, m => by simp [fixedDigits, length_fixedDigits n]

theorem fixedDigits_isDigit : ∀ n m, ∀ c ∈ fixedDigits n m, c.isDigit = true
  | 0, _, c, h => by simp [fixedDigits] at h
  | n + 1, m, c, h => by
    simp only [fixedDigits, List.mem_append, List.mem_singleton] at h
    rcases h with h | rfl
    · exact fixedDigits_isDigit n _ c h
    · exact digitChar_isDigit (Nat.mod_lt _ (by omega))

theorem digitVal {d : Nat} (h : d < 10) : (Nat.digitChar d).toNat - '0'.toNat = d := by
  have : ∀ d : Fin 10, (Nat.digitChar d.1).toNat - '0'.toNat = d.1 := by decide
  exact this ⟨d, h⟩

theorem ofDigitChars_append (a b : Str) (k : Nat) :
    Nat.ofDigitChars 10 (a ++ b) k = Nat.ofDigitChars 10 b (Nat.ofDigitChars 10 a k) := by
  simp [Nat.ofDigitChars, List.foldl_append]

theorem ofDigitChars_fixedDigits : ∀ (n m k : Nat), m < 10 ^ n →
    Nat.ofDigitChars 10 (fixedDigits n m) k = k * 10 ^ n + m
  | 0, m, k, h => by
    have : m = 0 := by simpa using h
    subst this
    simp [fixedDigits, Nat.ofDigitChars]
  | n + 1, m, k, h => by
    have hm : m / 10 < 10 ^ n := by
      rw [Nat.div_lt_iff_lt_mul (by omega)]
      rw [pow_succ] at h
      exact h
    rw [fixedDigits, ofDigitChars_append, ofDigitChars_fixedDigits n _ k hm]
    have hd := digitVal (d := m % 10) (Nat.mod_lt _ (by omega))
    simp only [Nat.ofDigitChars, List.foldl_cons, List.foldl_nil, hd, pow_succ]
    have := Nat.div_add_mod m 10
    ring_nf
    omega

theorem natRepr_isDigit (n : Nat) : ∀ c ∈ natRepr n, c.isDigit = true := fun c hc =>
  Nat.isDigit_of_mem_toDigits (by omega) (by omega) hc

theorem natRepr_ne_nil (n : Nat) : natRepr n ≠ [] := Nat.toDigits_ne_nil

theorem ofDigitChars_natRepr (n : Nat) : Nat.ofDigitChars 10 (natRepr n) 0 = n := Nat.ofDigitChars_ten_toDigits

theorem isDigit_ne {c : Char} (h : c.isDigit = true) : c ≠ '\t' ∧ c ≠ '\n' ∧ c ≠ '\r' ∧ c ≠ '.' ∧ c ≠ '-' ∧ c ≠ '+' ∧
    isSpace c = false := by
  refine ⟨?_, ?_, ?_, ?_, ?_, ?_, ?_⟩
  iterate 6 rintro rfl; simp at h
  · simp only [Char.isDigit, Bool.and_eq_true, decide_eq_true_eq] at h
    have h1 : 48 ≤ c.toNat := h.1
    have h2 : c.toNat ≤ 57 := h.2
    simp only [isSpace, Bool.or_eq_false_iff, Bool.and_eq_false_iff, decide_eq_false_iff_not, beq_eq_false_iff_ne]
    omega

theorem strip_eq {t : Str} (ne : t ≠ []) (h1 : ∀ c, t.head? = some c → isSpace c = false)
    (h2 : ∀ c, t.getLast? = some c → isSpace c = false) {w : Str} (hw : ∀ c ∈ w, isSpace c = true) :
    strip (t ++ w) = t := by
  obtain ⟨a, t', rfl⟩ := List.exists_cons_of_ne_nil ne
  have ha := h1 a rfl
  unfold strip
  rw [List.cons_append, List.dropWhile_cons_of_neg (by simp [ha])]
  rw [← List.cons_append, List.reverse_append]
  rw [List.dropWhile_append_of_pos (by intro c hc; exact hw c (List.mem_reverse.mp hc))]
  obtain ⟨b, s, hs⟩ := List.exists_cons_of_ne_nil (l := (a :: t').reverse) (by simp)
  have hb : (a :: t').getLast? = some b := by
    rw [← List.head?_reverse, hs]; rfl
  rw [hs, List.dropWhile_cons_of_neg (by simp [h2 b hb]), ← hs, List.reverse_reverse]

theorem signed_digit {c : Char} {t : Str} (h : c.isDigit = true) : signed (c :: t) = (false, c :: t) := by
  obtain ⟨-, -, -, -, h1, h2, -⟩ := isDigit_ne h
  unfold signed
  split
  · rename_i h; injection h with h; exact absurd h h1
  · rename_i h; injection h with h; exact absurd h h2
  · rfl

theorem parseInt_natRepr (n : Nat) : parseInt (natRepr n) = .ok (n : Int) := by
  have hd := natRepr_isDigit n
  obtain ⟨c, t, hc⟩ := List.exists_cons_of_ne_nil (natRepr_ne_nil n)
  have hs : strip (natRepr n) = natRepr n := by
    have := strip_eq (t := natRepr n) (w := []) (natRepr_ne_nil n)
      (fun c h => (isDigit_ne (hd c (List.mem_of_mem_head? h))).2.2.2.2.2.2)
      (fun c h => (isDigit_ne (hd c (List.mem_of_getLast? h))).2.2.2.2.2.2) (by simp)
    simpa using this
  have hsg : signed (natRepr n) = (false, natRepr n) := by
    rw [hc]
    exact signed_digit (hd c (by rw [hc]; simp))
  unfold parseInt
  simp only [hs, hsg]
  rw [if_pos]
  · simp [ofDigitChars_natRepr]
  · simp only [Bool.and_eq_true, Bool.not_eq_true', List.isEmpty_eq_false_iff, List.all_eq_true]
    exact ⟨natRepr_ne_nil n, hd⟩

/-- The nearest multiple of `10^-17`. -/
def round17 (p : ℚ) : ℚ := (roundHalfEven (p * 10 ^ 17) : ℚ) / 10 ^ 17

theorem dot_not_digit {s : Str} (h : ∀ c ∈ s, c.isDigit = true) : '.' ∉ s := fun hm =>
  (isDigit_ne (h _ hm)).2.2.2.1 rfl

theorem decimalValue_format17 (p : ℚ) : decimalValue (format17 p) = some (round17 p) := by
  unfold format17 decimalValue
  simp only
  generalize hk : roundHalfEven (p * 10 ^ 17) = k
  have h1 := natRepr_isDigit (k / 10 ^ 17)
  have h2 := fixedDigits_isDigit 17 (k % 10 ^ 17)
  have hs : splitOn (natRepr (k / 10 ^ 17) ++ c!"." ++ fixedDigits 17 (k % 10 ^ 17)) '.' =
      [natRepr (k / 10 ^ 17), fixedDigits 17 (k % 10 ^ 17)] := by
    have := splitOn_sep (sep := '.') (a := natRepr (k / 10 ^ 17)) (fixedDigits 17 (k % 10 ^ 17)) (dot_not_digit h1)
    rw [splitOn_no_sep (dot_not_digit h2)] at this
    simpa using this
  rw [hs]
  simp only
  rw [if_pos]
  · rw [length_fixedDigits, ofDigitChars_append, ofDigitChars_natRepr,
      ofDigitChars_fixedDigits _ _ _ (Nat.mod_lt _ (by positivity)), round17, hk]
    congr 2
    have := Nat.div_add_mod k (10 ^ 17)
    rw [mul_comm] at this
    exact_mod_cast this
  · simp only [Bool.and_eq_true, Bool.not_eq_true', List.isEmpty_eq_false_iff, List.all_eq_true, List.mem_append]
    refine ⟨by simp [natRepr_ne_nil], ?_⟩
    rintro c (h | h)
    · exact h1 c h
    · exact h2 c h

theorem format17_cons (p : ℚ) : ∃ c t, format17 p = c :: t ∧ c.isDigit = true := by
  unfold format17
  simp only
  generalize roundHalfEven (p * 10 ^ 17) = k
  obtain ⟨c, t, hc⟩ := List.exists_cons_of_ne_nil (natRepr_ne_nil (k / 10 ^ 17))
  refine ⟨c, t ++ (c!"." ++ fixedDigits 17 (k % 10 ^ 17)), by rw [hc]; simp, ?_⟩
  exact natRepr_isDigit _ c (by rw [hc]; simp)

theorem format17_chars (p : ℚ) : ∀ c ∈ format17 p, c.isDigit = true ∨ c = '.' := by
  unfold format17
  simp only [List.mem_append]
  rintro c ((h | h) | h)
  · exact Or.inl (natRepr_isDigit _ c h)
  · right; simpa using h
  · exact Or.inl (fixedDigits_isDigit _ _ c h)

theorem parseFloat_format17 (R : Rounding) (p : ℚ) : parseFloat R (format17 p ++ c!"\n") = .ok (R.fl (round17 p)) := by
  obtain ⟨c, t, hc, hd⟩ := format17_cons p
  have hns : ∀ c, c ∈ format17 p → isSpace c = false := by
    intro c h
    rcases format17_chars p c h with h | rfl
    · exact (isDigit_ne h).2.2.2.2.2.2
    · decide
  have hs : strip (format17 p ++ c!"\n") = format17 p :=
    strip_eq (by rw [hc]; simp) (fun c h => hns c (List.mem_of_mem_head? h)) (fun c h => hns c (List.mem_of_getLast? h))
      (by decide)
  have hsg : signed (format17 p) = (false, format17 p) := by
    rw [hc]
    exact signed_digit hd
  unfold parseFloat
  simp only [hs, hsg, decimalValue_format17]
  simp

theorem roundHalfEven_err (x : ℚ) (hx : 0 ≤ x) : |(roundHalfEven x : ℚ) - x| ≤ 1 / 2 := by
  have hf : ((⌊x⌋.toNat : ℕ) : ℚ) = (⌊x⌋ : ℚ) := by
    have : ((⌊x⌋.toNat : ℕ) : ℤ) = ⌊x⌋ := Int.toNat_of_nonneg (Int.floor_nonneg.mpr hx)
    exact_mod_cast congrArg (fun z : ℤ => (z : ℚ)) this
  have h1 := Int.floor_le x
  have h2 := Int.lt_floor_add_one x
  unfold roundHalfEven
  simp only [hf]
  split
  · rw [hf, abs_le]; constructor <;> linarith
  · split
    · push_cast; rw [hf, abs_le]; constructor <;> linarith
    · split
      · rw [hf, abs_le]; constructor <;> linarith
      · push_cast; rw [hf, abs_le]; constructor <;> linarith

/-- The written probability differs from the true one by at most half a unit of the 17th decimal. -/
theorem round17_err (p : ℚ) (hp : 0 ≤ p) : |round17 p - p| ≤ 1 / (2 * 10 ^ 17) := by
  have h := roundHalfEven_err (p * 10 ^ 17) (by positivity)
  unfold round17
  have e : (roundHalfEven (p * 10 ^ 17) : ℚ) / 10 ^ 17 - p = ((roundHalfEven (p * 10 ^ 17) : ℚ) - p * 10 ^ 17) / 10 ^ 17 := by
    field_simp
  rw [e, abs_div, abs_of_pos (by positivity : (0 : ℚ) < 10 ^ 17)]
  rw [div_le_div_iff₀ (by positivity) (by positivity)]
  generalize |(roundHalfEven (p * 10 ^ 17) : ℚ) - p * 10 ^ 17| = y at h
  norm_num
  linarith

theorem round17_pos {p : ℚ} (hp : 1 / (2 * 10 ^ 17) < p) : 0 < round17 p := by
  have h0 : (0 : ℚ) < 1 / (2 * 10 ^ 17) := by positivity
  have h := (abs_le.mp (round17_err p (by linarith))).1
  linarith

theorem round17_tiny {p : ℚ} (h0 : 0 < p) (hp : p ≤ 1 / (2 * 10 ^ 17)) : round17 p = 0 := by
  have hx : p * 10 ^ 17 ≤ 1 / 2 := by
    rw [le_div_iff₀ (by positivity)] at hp
    linarith
  have hf : ⌊p * 10 ^ 17⌋ = 0 := by
    rw [Int.floor_eq_iff]
    constructor
    · push_cast; positivity
    · push_cast; linarith
  unfold round17 roundHalfEven
  simp only [hf]
  norm_num
  intro h1
  linarith

theorem fl_pos (R : Rounding) {x : ℚ} (hx : 0 < x) : 0 < R.fl x := by
  have := (abs_le.mp (R.err x hx.le)).1
  have h : x / 2 ^ 53 < x := by
    rw [div_lt_iff₀ (by positivity)]
    nlinarith
  linarith

theorem fl_zero (R : Rounding) : R.fl 0 = 0 := by
  have := R.nat 0 (by positivity)
  simpa using this

/-! ### Lines -/

theorem universalNewlines_id : ∀ (t : Str), '\r' ∉ t → universalNewlines t = t
  | [], _ => rfl
  | c :: t, h => by
    have hc : c ≠ '\r' := fun e => h (by rw [e]; simp)
    have ht := universalNewlines_id t (fun hm => h (List.mem_cons_of_mem _ hm))
    rw [universalNewlines, ht]
    · intro t' h1; exact fun _ => hc h1
    · exact hc

theorem fileLinesAux_line (rest : Str) : ∀ (l cur : Str), '\n' ∉ l →
    fileLinesAux (l ++ c!"\n" ++ rest) cur = (cur.reverse ++ l ++ c!"\n") :: fileLinesAux rest []
  | [], cur, _ => by simp [fileLinesAux]
  | c :: l, cur, h => by
    have hc : c ≠ '\n' := fun e => h (by rw [e]; simp)
    have := fileLinesAux_line rest l (c :: cur) (fun hm => h (List.mem_cons_of_mem _ hm))
    simp only [List.cons_append, fileLinesAux, if_neg hc]
    simpa using this

theorem fileLines_flatten (ls : List Str) (hn : ∀ l ∈ ls, '\n' ∉ l ∧ '\r' ∉ l) :
    fileLines ((ls.map (· ++ c!"\n")).flatten) = ls.map (· ++ c!"\n") := by
  have hr : '\r' ∉ (ls.map (· ++ c!"\n")).flatten := by
    simp only [List.mem_flatten, List.mem_map, not_exists, not_and]
    rintro x ⟨l, hl, rfl⟩ h
    rcases List.mem_append.mp h with h | h
    · exact (hn l hl).2 h
    · simp at h
  unfold fileLines
  rw [universalNewlines_id _ hr]
  clear hr
  induction ls with
  | nil => rfl
  | cons l ls ih =>
    simp only [List.map_cons, List.flatten_cons]
    rw [fileLinesAux_line _ l [] (hn l (by simp)).1, ih (fun x hx => hn x (List.mem_cons_of_mem _ hx))]
    simp

/-- A line without its line feed. -/
def lineBody (e : Entry) : Str := e.text ++ c!"\t" ++ natRepr e.count ++ c!"\t" ++ format17 e.proba

/-- A text that may be written to a file of tab-separated lines. -/
def Writable (t : Str) : Prop := '\t' ∉ t ∧ '\n' ∉ t ∧ '\r' ∉ t

theorem writeLine_eq (e : Entry) : writeLine e = lineBody e ++ c!"\n" := rfl

theorem lineBody_clean {e : Entry} (h : Writable e.text) : '\n' ∉ lineBody e ∧ '\r' ∉ lineBody e := by
  unfold lineBody
  have h1 := natRepr_isDigit e.count
  have h2 := format17_chars e.proba
  constructor
  · simp only [List.mem_append, not_or]
    refine ⟨⟨⟨⟨h.2.1, by decide⟩, fun hm => ?_⟩, by decide⟩, fun hm => ?_⟩
    · exact (isDigit_ne (h1 _ hm)).2.1 rfl
    · rcases h2 _ hm with h | h
      · exact (isDigit_ne h).2.1 rfl
      · simp at h
  · simp only [List.mem_append, not_or]
    refine ⟨⟨⟨⟨h.2.2, by decide⟩, fun hm => ?_⟩, by decide⟩, fun hm => ?_⟩
    · exact (isDigit_ne (h1 _ hm)).2.2.1 rfl
    · rcases h2 _ hm with h | h
      · exact (isDigit_ne h).2.2.1 rfl
      · simp at h

theorem splitOn_writeLine {e : Entry} (h : Writable e.text) : splitOn (writeLine e) '\t' =
    [e.text, natRepr e.count, format17 e.proba ++ c!"\n"] := by
  have h1 : '\t' ∉ natRepr e.count := fun hm => (isDigit_ne (natRepr_isDigit _ _ hm)).1 rfl
  have h2 : '\t' ∉ format17 e.proba ++ c!"\n" := by
    intro hm
    rcases List.mem_append.mp hm with hm | hm
    · rcases format17_chars _ _ hm with h | h
      · exact (isDigit_ne h).1 rfl
      · simp at h
    · simp at hm
  have e1 : writeLine e = e.text ++ '\t' :: (natRepr e.count ++ '\t' :: (format17 e.proba ++ c!"\n")) := by
    simp [writeLine]
  rw [e1, splitOn_sep _ h.1, splitOn_sep _ h1, splitOn_no_sep h2]

/-- What reading a written line does. -/
theorem loadLine_writeLine (R : Rounding) (log : ℚ → ℚ) (mc : Int) (d : Dict Str Details) {e : Entry}
    (h : Writable e.text) : loadLine R log mc d (writeLine e) =
    if mc ≤ e.count then
      (if 0 < R.fl (round17 e.proba) then
        .ok (Dict.set d e.text ((e.count : Int), R.fl (round17 e.proba), (log (R.fl (round17 e.proba)) : WithBot ℚ)))
        else .error .value)
    else .ok d := by
  unfold loadLine
  rw [splitOn_writeLine h]
  simp only [parseInt_natRepr, parseFloat_format17, mathLog]
  by_cases h1 : mc ≤ (e.count : Int)
  · by_cases h2 : 0 < R.fl (round17 e.proba)
    · simp [h1, h2, bind, Except.bind, pure, Except.pure]
    · simp [h1, h2, bind, Except.bind]
  · simp [h1, bind, Except.bind]

theorem writeNgramFile_lines {es : List Entry} (h : ∀ e ∈ es, Writable e.text) :
    fileLines (writeNgramFile es) = ((sortDesc Entry.proba es).filter fun e => 0 < e.proba).map writeLine := by
  unfold writeNgramFile
  have := fileLines_flatten ((((sortDesc Entry.proba es).filter fun e => 0 < e.proba)).map lineBody) (by
    intro l hl
    obtain ⟨e, he, rfl⟩ := List.mem_map.mp hl
    exact lineBody_clean (h e ((mem_sortDesc _).mp (List.mem_filter.mp he).1)))
  simpa [List.map_map, Function.comp_def, ← writeLine_eq] using this

/-- The entries of a list that are kept when its file is read with a minimum count, as they are read. -/
def readBack (R : Rounding) (log : ℚ → ℚ) (mc : Int) (e : Entry) : Option (Str × Details) :=
  if mc ≤ (e.count : Int) then
    some (e.text, (e.count : Int), R.fl (round17 e.proba), (log (R.fl (round17 e.proba)) : WithBot ℚ))
  else none

theorem loadLines_ok (R : Rounding) (log : ℚ → ℚ) (mc : Int) : ∀ (es : List Entry) (d : Dict Str Details),
    (∀ e ∈ es, Writable e.text) → (∀ e ∈ es, mc ≤ (e.count : Int) → 0 < round17 e.proba) →
    (es.map writeLine).foldlM (loadLine R log mc) d =
      .ok ((es.filterMap (readBack R log mc)).foldl (fun d p => Dict.set d p.1 p.2) d)
  | [], d, _, _ => rfl
  | e :: es, d, h1, h2 => by
    rw [List.map_cons, List.foldlM_cons, loadLine_writeLine R log mc d (h1 e (by simp))]
    have ih := fun d => loadLines_ok R log mc es d (fun e he => h1 e (List.mem_cons_of_mem _ he))
      (fun e he => h2 e (List.mem_cons_of_mem _ he))
    by_cases hc : mc ≤ (e.count : Int)
    · have hp := fl_pos R (h2 e (by simp) hc)
      simp only [hc, if_true, hp, List.filterMap_cons, readBack, List.foldl_cons]
      exact ih _
    · simp only [hc, List.filterMap_cons, readBack]
      exact ih _

theorem loadLines_error (R : Rounding) (log : ℚ → ℚ) (mc : Int) : ∀ (es : List Entry) (d : Dict Str Details),
    (∀ e ∈ es, Writable e.text) → (∃ e ∈ es, mc ≤ (e.count : Int) ∧ round17 e.proba = 0) →
    (es.map writeLine).foldlM (loadLine R log mc) d = .error .value
  | [], d, _, h => by obtain ⟨e, he, _⟩ := h; simp at he
  | e :: es, d, h1, h2 => by
    rw [List.map_cons, List.foldlM_cons, loadLine_writeLine R log mc d (h1 e (by simp))]
    by_cases hc : mc ≤ (e.count : Int) ∧ ¬ 0 < R.fl (round17 e.proba)
    · simp only [hc.1, if_true, if_neg hc.2]
      rfl
    · have h2' : ∃ e ∈ es, mc ≤ (e.count : Int) ∧ round17 e.proba = 0 := by
        obtain ⟨x, hx, hx1, hx2⟩ := h2
        rcases List.mem_cons.mp hx with rfl | hx
        · exfalso
          apply hc
          refine ⟨hx1, ?_⟩
          rw [hx2, fl_zero]
          exact lt_irrefl 0
        · exact ⟨x, hx, hx1, hx2⟩
      have ih := fun d => loadLines_error R log mc es d (fun e he => h1 e (List.mem_cons_of_mem _ he)) h2'
      by_cases hm : mc ≤ (e.count : Int)
      · have hp : 0 < R.fl (round17 e.proba) := by
          by_contra hn
          exact hc ⟨hm, hn⟩
        simp only [hm, if_true, hp]
        exact ih _
      · simp only [hm]
        exact ih _

end Model
