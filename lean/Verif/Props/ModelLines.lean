import Verif.Lemmas.ModelLines

/-! C113: what the files of a language model have to look like, and what is read from them. `R` is the rounding of `float(text)`, `log`
the value of `math.log`. -/

namespace Props
open Py Model Spec

variable {R : Rounding} {log : ℚ → ℚ} {files : List (Int × Str)} {lss : List (List Str)}

/-- **C113.** Every text has lines, in one way. -/
theorem C113_lines (t : Str) : ∃! ls, FileLines t ls := by
  obtain ⟨ls, h⟩ := lines_exist t.length t le_rfl
  exact ⟨ls, h, fun ls' h' => forall₂_lineRead_inj (fileLines_lines h') (fileLines_lines h)⟩

/-- **C113.** A language model loads exactly when every line of every file has three columns, the second one a whole number and, when it
reaches the minimum count of its order, the third one a positive number. -/
theorem C113_loads (hl : List.Forall₂ (fun f ls => FileLines f.2 ls) files lss) :
    (∃ m, LM.load R log files = .ok m) ↔ ∀ r ∈ allLines files lss, Fine R.fl r := by
  unfold LM.load
  rw [foldlM_files hl]
  rcases foldlM_fine (R := R) (log := log) (allLines files lss) [] with ⟨h, d, e⟩ | ⟨h, e⟩
  · rw [e]; exact ⟨fun _ => h, fun _ => ⟨_, rfl⟩⟩
  · rw [e]
    constructor
    · rintro ⟨m, hm⟩; cases hm
    · intro h'; exact absurd h' h

/-- **C113.** Otherwise the constructor raises `ValueError`. -/
theorem C113_value_error {e : PyErr} (h : LM.load R log files = .error e) : e = .value := by
  obtain ⟨lss, hl⟩ : ∃ lss, List.Forall₂ (fun f ls => FileLines f.2 ls) files lss := by
    clear h
    induction files with
    | nil => exact ⟨[], .nil⟩
    | cons f fs ih =>
      obtain ⟨lss, h⟩ := ih
      obtain ⟨ls, hls⟩ := lines_exist f.2.length f.2 le_rfl
      exact ⟨ls :: lss, .cons hls h⟩
  unfold LM.load at h
  rw [foldlM_files hl] at h
  rcases foldlM_fine (R := R) (log := log) (allLines files lss) [] with ⟨-, d, e'⟩ | ⟨-, e'⟩
  · rw [e'] at h; cases h
  · rw [e'] at h; cases h; rfl

/-- **C113.** What is known of an n-gram is what its last line says, among the lines whose counts reach the minimum of their order; its
log-probability is that of the probability. -/
theorem C113_known (hl : List.Forall₂ (fun f ls => FileLines f.2 ls) files lss) {m : LM} (h : LM.load R log files = .ok m)
    (g : Str) (n : Int) (v : ℚ) (x : WithBot ℚ) : Dict.get? m.details g = some (n, v, x) ↔
      x = (log v : WithBot ℚ) ∧ ∃ pre r post, allLines files lss = pre ++ r :: post ∧ Row R.fl r g n v ∧
        ∀ r' ∈ post, ∀ n' v', ¬ Row R.fl r' g n' v' := by
  rw [(load_ok h).get?, rowsOf_lines hl, lastFor_filterMap]
  constructor
  · rintro ⟨pre, r, post, e, h1, h2⟩
    obtain ⟨h3, h4⟩ := accept_row.mp h1
    exact ⟨h4, pre, r, post, e, h3, fun r' hr' n' v' hrow => h2 r' hr' _ (accept_row.mpr ⟨hrow, rfl⟩)⟩
  · rintro ⟨rfl, pre, r, post, e, h1, h2⟩
    refine ⟨pre, r, post, e, accept_row.mpr ⟨h1, rfl⟩, ?_⟩
    rintro r' hr' ⟨n', v', x'⟩ ha
    exact h2 r' hr' n' v' (accept_row.mp ha).1

/-- A file of 1-grams, with lines ended in different ways, a negative count with an unreadable probability, and a word given twice. -/
def gramLines : Str := c!"the\t5\t0.25\r\nfox\t-3\tx\nthe\t +7\t.50 "

example : FileLines gramLines [c!"the\t5\t0.25", c!"fox\t-3\tx", c!"the\t +7\t.50 "] :=
  .line (l := c!"the\t5\t0.25") (e := c!"\r\n") (rest := c!"fox\t-3\tx\nthe\t +7\t.50 ") (by decide) (by decide) (.inr (.inl rfl))
    (.line (l := c!"fox\t-3\tx") (e := c!"\n") (rest := c!"the\t +7\t.50 ") (by decide) (by decide) (.inl rfl)
      (.last (by decide) (by decide) (by decide)))

/-- The line of the fox is fine, though its probability cannot be read: its count is too small. -/
example : Fine Rounding.exact.fl (1, c!"fox\t-3\tx") :=
  ⟨c!"fox", c!"-3", c!"x", -3, ⟨rfl, by decide, by decide, by decide⟩,
    ⟨c!"-", c!"3", 3, ⟨[], [], rfl, by simp, by simp⟩, by decide, .snoc (ds := []) (k := 3) .nil rfl, .inr (.inr ⟨rfl, rfl⟩)⟩,
    fun h => absurd h (by decide)⟩

/-- The count is the one of the last line. -/
example : ((LM.load Rounding.exact (fun p => p) [(1, gramLines)]).map fun m => (m.len, m.hasNgram c!"the" 7, m.hasNgram c!"the" 8,
    m.contains c!"fox")) = .ok (1, true, false, false) := by decide +kernel

/-- With a minimum count of -3 the line of the fox raises `ValueError`. -/
example : (LM.load Rounding.exact (fun p => p) [(-3, gramLines)]).map (fun m => m.len) = .error .value := by decide +kernel

end Props
