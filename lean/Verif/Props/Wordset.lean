import Verif.Model.Wordset
import Verif.Lemmas.Files
import Verif.Lemmas.Ngrams
import Verif.Lemmas.LmQuery
import Verif.Lemmas.ParserCall
import Verif.Lemmas.Preprocessing
import Verif.Lemmas.LangModel
import Verif.Lemmas.Samples
import Verif.Props.LangModel

/-! C96: the word vectors. -/

namespace Props
open Py Model Spec

variable {α : Type} {toFloat : Str → Except PyErr α} {lm : LM}

theorem wordsetLine_known {d : Dict Str (List α)} {line w : Str} {fs : List Str} {v : List α}
    (hl : splitWs line = w :: fs) (hw : lm.hasNgram w 1 = true) (hv : fs.mapM toFloat = .ok v) :
    wordsetLine toFloat lm d line = .ok (d.set w v) := by
  have h0 : index (w :: fs) 0 = .ok w := rfl
  have h1 : sliceFrom (w :: fs) 1 = fs := by simp [sliceFrom, clampIdx]
  simp [wordsetLine, hl, h0, h1, hw, hv, bind, Except.bind, pure, Except.pure]

theorem wordsetLine_unknown {d : Dict Str (List α)} {line w : Str} {fs : List Str}
    (hl : splitWs line = w :: fs) (hw : lm.hasNgram w 1 = false) : wordsetLine toFloat lm d line = .ok d := by
  have h0 : index (w :: fs) 0 = .ok w := rfl
  simp [wordsetLine, hl, h0, hw, bind, Except.bind, pure, Except.pure]

theorem wordsetLine_error {d : Dict Str (List α)} {line : Str} {e : PyErr} :
    wordsetLine toFloat lm d line = .error e ↔ (splitWs line = [] ∧ e = .index) ∨
      ∃ w fs, splitWs line = w :: fs ∧ lm.hasNgram w 1 = true ∧ fs.mapM toFloat = .error e := by
  cases hl : splitWs line with
  | nil =>
    have h0 : index ([] : List Str) 0 = .error .index := rfl
    simp only [wordsetLine, hl, h0, bind, Except.bind, Except.error.injEq]
    simp [eq_comm (a := e)]
  | cons w fs =>
    cases hw : lm.hasNgram w 1 with
    | false => simp [wordsetLine_unknown (toFloat := toFloat) (d := d) hl hw, hw]
    | true =>
      cases hv : fs.mapM toFloat with
      | ok v => simp [wordsetLine_known (d := d) hl hw hv, hv]
      | error e' =>
        have h0 : index (w :: fs) 0 = .ok w := rfl
        have h1 : sliceFrom (w :: fs) 1 = fs := by simp [sliceFrom, clampIdx]
        simp [wordsetLine, hl, h0, h1, hw, hv, bind, Except.bind]

theorem wordsetSave_rows (num : Str → α) : ∀ (rows : List (Str × List Str)) (lines : List Str) (d : Dict Str (List α)),
    List.Forall₂ (fun r line => splitWs line = r.1 :: r.2) rows lines →
    (∀ r ∈ rows, lm.hasNgram r.1 1 = true → ∀ f ∈ r.2, toFloat f = .ok (num f)) →
    lines.foldlM (wordsetLine toFloat lm) d = .ok
      (((rows.filter fun r => lm.hasNgram r.1 1).map fun r => (r.1, r.2.map num)).foldl (fun d p => d.set p.1 p.2) d)
  | _, _, d, .nil, _ => rfl
  | r :: rows, line :: lines, d, .cons hl hls, hn => by
    rw [List.foldlM_cons]
    have ih := fun d => wordsetSave_rows num rows lines d hls fun r hr => hn r (by simp [hr])
    cases hw : lm.hasNgram r.1 1 with
    | false =>
      rw [wordsetLine_unknown hl hw]
      simp only [bind, Except.bind, List.filter_cons, hw]
      exact ih d
    | true =>
      have hv : r.2.mapM toFloat = .ok (r.2.map num) := mapM_ok_map fun f hf => hn r (by simp) hw f hf
      rw [wordsetLine_known hl hw hv]
      simp only [bind, Except.bind, List.filter_cons, hw, if_true, List.map_cons, List.foldl_cons]
      exact ih _

/-- **C96.** From a file with a word and its numbers on every line, separated by blanks, `save` keeps the words that the
language model knows: the vector of a word, whatever its case, is that of the last line for the word in lower case, and the
zero vector if there is no line or the model does not know the word. The size is the number of words kept, plus one. -/
theorem C96_save (rows : List (Str × List Str)) (e : Str) (he : e ∈ [c!"\n", c!"\r\n", c!"\r"]) (closed : Bool)
    (hr : ∀ r ∈ rows, ∀ x ∈ r.1 :: r.2, x ≠ [] ∧ ∀ c ∈ x, isSpace c = false) (num : Str → α)
    (hn : ∀ r ∈ rows, lm.hasNgram r.1 1 = true → ∀ f ∈ r.2, toFloat f = .ok (num f)) :
    ∃ d, wordsetSave toFloat lm (Spec.textLines (rows.map fun r => join c!" " (r.1 :: r.2)) e closed) = .ok d ∧
      (∀ (lower : Str → Str) (zero : List α) (w : Str), wordsetGet lower zero d w =
        if lm.hasNgram (lower w) 1 then ((Spec.lastFor rows (lower w)).map fun l => l.map num).getD zero else zero) ∧
      ∃ ws : List Str, ws.Nodup ∧ (∀ w, w ∈ ws ↔ lm.hasNgram w 1 = true ∧ w ∈ rows.map Prod.fst) ∧
        wordsetLen d = ws.length + 1 := by
  have hsp : ∀ r ∈ rows, ∀ c ∈ join c!" " (r.1 :: r.2), c = ' ' ∨ isSpace c = false := by
    have key : ∀ l : List Str, (∀ x ∈ l, x ≠ [] ∧ ∀ c ∈ x, isSpace c = false) →
        ∀ c ∈ join c!" " l, c = ' ' ∨ isSpace c = false := by
      intro l
      induction l with
      | nil => intro _ c hc; simp [join] at hc
      | cons a l ih =>
        intro h c hc
        cases l with
        | nil => exact .inr ((h a (by simp)).2 c (by simpa [join] using hc))
        | cons b l =>
          rw [join] at hc
          simp only [List.mem_append, List.mem_singleton] at hc
          rcases hc with (hc | hc) | hc
          · exact .inr ((h a (by simp)).2 c hc)
          · exact .inl hc
          · exact ih (fun x hx => h x (by simp [hx])) c hc
    exact fun r h => key _ (hr r h)
  have hlines := fileLines_textLines (ls := rows.map fun r => join c!" " (r.1 :: r.2)) he (by
      intro l hl
      obtain ⟨r, h1, rfl⟩ := List.mem_map.mp hl
      constructor <;> intro hc <;> rcases hsp r h1 _ hc with h | h <;> revert h <;> decide) (by
      intro l hl h0
      obtain ⟨r, h1, rfl⟩ := List.mem_map.mp hl
      have := splitWs_join _ (hr r h1)
      rw [h0] at this
      cases this) closed
  have hrows : List.Forall₂ (fun r line => splitWs line = r.1 :: r.2) rows
      (fileLines (Spec.textLines (rows.map fun r => join c!" " (r.1 :: r.2)) e closed)) := by
    rw [List.forall₂_map_left_iff] at hlines
    have h4 := (List.forall₂_and_left (p := fun r => r ∈ rows) rows _).mpr ⟨fun r h => h, hlines⟩
    refine h4.imp ?_
    rintro r l ⟨hm, hl⟩
    rcases hl with rfl | rfl
    · exact splitWs_join _ (hr r hm)
    · rw [splitWs_append_spaces _ (by decide), splitWs_join _ (hr r hm)]
  refine ⟨_, wordsetSave_rows num rows _ [] hrows hn, ?_, ?_⟩
  · intro lower zero w
    have hg := Dict.get?_ofPairs ((rows.filter fun r => lm.hasNgram r.1 1).map fun r => (r.1, r.2.map num)) (lower w)
    unfold Dict.ofPairs at hg
    unfold wordsetGet
    rw [hg, ← lastFor_eq]
    unfold Spec.lastFor
    rw [List.filter_map, List.filter_filter]
    cases hw : lm.hasNgram (lower w) 1 with
    | false =>
      have : (rows.filter fun a => decide (a.1 = lower w) && lm.hasNgram a.1 1) = [] := by
        rw [List.filter_eq_nil_iff]
        intro a _ h
        simp only [Bool.and_eq_true, decide_eq_true_eq] at h
        rw [h.1, hw] at h
        simp at h
      simp [Function.comp_def, this]
    | true =>
      have : (rows.filter fun a => decide (a.1 = lower w) && lm.hasNgram a.1 1) = rows.filter fun a => a.1 = lower w := by
        refine List.filter_congr fun a _ => ?_
        by_cases h : a.1 = lower w
        · simp [h, hw]
        · simp [h]
      simp [Function.comp_def, this, List.getLast?_map]
  · refine ⟨_, (Dict.Wf.ofPairs ((rows.filter fun r => lm.hasNgram r.1 1).map fun r => (r.1, r.2.map num))), ?_, ?_⟩
    · intro w
      rw [keys_ofPairs_mem]
      simp only [List.mem_map, List.mem_filter]
      constructor
      · rintro ⟨p, ⟨r, ⟨h1, h2⟩, rfl⟩, rfl⟩
        exact ⟨h2, r, h1, rfl⟩
      · rintro ⟨h1, r, h2, rfl⟩
        exact ⟨_, ⟨r, ⟨h2, h1⟩, rfl⟩, rfl⟩
    · simp [wordsetLen, Dict.ofPairs, Dict.keys]

/-- **C96.** `save` raises exactly on the first line that is blank (`IndexError`), or that has something that is no number
after a word that the language model knows. -/
theorem C96_errors (content : Str) (e : PyErr) : wordsetSave toFloat lm content = .error e ↔
    ∃ pre line post, fileLines content = pre ++ line :: post ∧
      (∀ l ∈ pre, ∃ w fs, splitWs l = w :: fs ∧ (lm.hasNgram w 1 = true → ∃ v, fs.mapM toFloat = .ok v)) ∧
      ((splitWs line = [] ∧ e = .index) ∨
        ∃ w fs, splitWs line = w :: fs ∧ lm.hasNgram w 1 = true ∧ fs.mapM toFloat = .error e) := by
  have key : ∀ (lines : List Str) (d : Dict Str (List α)), lines.foldlM (wordsetLine toFloat lm) d = .error e ↔
      ∃ pre line post, lines = pre ++ line :: post ∧
      (∀ l ∈ pre, ∃ w fs, splitWs l = w :: fs ∧ (lm.hasNgram w 1 = true → ∃ v, fs.mapM toFloat = .ok v)) ∧
      ((splitWs line = [] ∧ e = .index) ∨
        ∃ w fs, splitWs line = w :: fs ∧ lm.hasNgram w 1 = true ∧ fs.mapM toFloat = .error e) := by
    intro lines
    induction lines with
    | nil => intro d; simp [pure, Except.pure]
    | cons a lines ih =>
      intro d
      rw [List.foldlM_cons]
      cases ha : wordsetLine toFloat lm d a with
      | error e' =>
        simp only [bind, Except.bind]
        have h' := wordsetLine_error.mp ha
        constructor
        · intro h
          cases h
          exact ⟨[], a, lines, rfl, by simp, h'⟩
        · rintro ⟨pre, line, post, h1, h2, h3⟩
          cases pre with
          | nil =>
            simp only [List.nil_append, List.cons.injEq] at h1
            obtain ⟨rfl, rfl⟩ := h1
            have := (wordsetLine_error (d := d)).mpr h3
            rw [ha] at this
            exact this
          | cons p pre =>
            simp only [List.cons_append, List.cons.injEq] at h1
            obtain ⟨rfl, rfl⟩ := h1
            obtain ⟨w, fs, k1, k2⟩ := h2 a (by simp)
            rcases h' with ⟨k, -⟩ | ⟨w', fs', k3, k4, k5⟩
            · rw [k1] at k; cases k
            · rw [k1] at k3
              cases k3
              obtain ⟨v, hv⟩ := k2 k4
              rw [hv] at k5
              cases k5
      | ok d' =>
        simp only [bind, Except.bind]
        rw [ih d']
        have hok : ∃ w fs, splitWs a = w :: fs ∧ (lm.hasNgram w 1 = true → ∃ v, fs.mapM toFloat = .ok v) := by
          cases hl : splitWs a with
          | nil =>
            have := (wordsetLine_error (toFloat := toFloat) (lm := lm) (d := d) (e := .index)).mpr (.inl ⟨hl, rfl⟩)
            rw [ha] at this; cases this
          | cons w fs =>
            refine ⟨w, fs, rfl, fun hw => ?_⟩
            cases hv : fs.mapM toFloat with
            | ok v => exact ⟨v, rfl⟩
            | error e' =>
              have := (wordsetLine_error (d := d)).mpr (.inr ⟨w, fs, hl, hw, hv⟩)
              rw [ha] at this; cases this
        constructor
        · rintro ⟨pre, line, post, rfl, h2, h3⟩
          refine ⟨a :: pre, line, post, rfl, ?_, h3⟩
          intro l hl
          rcases List.mem_cons.mp hl with rfl | hl
          · exact hok
          · exact h2 l hl
        · rintro ⟨pre, line, post, h1, h2, h3⟩
          cases pre with
          | nil =>
            simp only [List.nil_append, List.cons.injEq] at h1
            obtain ⟨rfl, rfl⟩ := h1
            have := (wordsetLine_error (d := d)).mpr h3
            rw [ha] at this
            cases this
          | cons p pre =>
            simp only [List.cons_append, List.cons.injEq] at h1
            obtain ⟨rfl, rfl⟩ := h1
            exact ⟨pre, line, post, rfl, fun l hl => h2 l (by simp [hl]), h3⟩
  exact key _ []

/-- **C96.** If every word that the language model knows has `D` numbers, every word has a vector of that size, and sentences
of at most 50 tokens are vectorized with the saved vectors without exception. -/
theorem C96_vectorize [Zero α] (rows : List (Str × List Str)) (e : Str) (he : e ∈ [c!"\n", c!"\r\n", c!"\r"])
    (closed : Bool) (hr : ∀ r ∈ rows, ∀ x ∈ r.1 :: r.2, x ≠ [] ∧ ∀ c ∈ x, isSpace c = false) (num : Str → α) (D : Nat)
    (hn : ∀ r ∈ rows, lm.hasNgram r.1 1 = true → r.2.length = D ∧ ∀ f ∈ r.2, toFloat f = .ok (num f)) :
    ∃ d, wordsetSave toFloat lm (Spec.textLines (rows.map fun r => join c!" " (r.1 :: r.2)) e closed) = .ok d ∧
      ∀ lower : Str → Str, (∀ w, (wordsetGet lower (List.replicate D 0) d w).length = D) ∧
        ∀ (code : Char → Nat) (tokens : List Str), tokens.length ≤ 50 →
          ∃ chars vecs, vectorizeSentence code (wordsetGet lower (List.replicate D 0) d) tokens =
            .ok (tokens.length + 2, chars, vecs) := by
  obtain ⟨d, h1, h2, -⟩ := C96_save rows e he closed hr num fun r hm hw => (hn r hm hw).2
  refine ⟨d, h1, fun lower => ?_⟩
  have hsize : ∀ w, (wordsetGet lower (List.replicate D 0) d w).length = D := by
    intro w
    rw [h2]
    cases hw : lm.hasNgram (lower w) 1 with
    | false => simp
    | true =>
      cases hl : Spec.lastFor rows (lower w) with
      | none => simp
      | some fs =>
        have hm : (lower w, fs) ∈ rows := by
          unfold Spec.lastFor at hl
          obtain ⟨r, hr1, hr2⟩ := Option.map_eq_some_iff.mp hl
          have := List.mem_of_mem_getLast? hr1
          rw [List.mem_filter, decide_eq_true_eq] at this
          rw [← hr2, ← this.2]
          exact this.1
        simpa using (hn _ hm hw).1
  exact ⟨hsize, fun code tokens ht => ⟨_, _, vectorizeSentence_ok code _ D hsize tokens ht⟩⟩

/-- **C96.** The lines of words with capitals are kept but never used: no word gets another vector when they are left out. -/
theorem C96_capitals (rows : List (Str × List Str)) (e : Str) (he : e ∈ [c!"\n", c!"\r\n", c!"\r"])
    (hr : ∀ r ∈ rows, ∀ x ∈ r.1 :: r.2, x ≠ [] ∧ ∀ c ∈ x, isSpace c = false) (num : Str → α)
    (hn : ∀ r ∈ rows, lm.hasNgram r.1 1 = true → ∀ f ∈ r.2, toFloat f = .ok (num f))
    (lower : Str → Str) (hlow : ∀ w, lower (lower w) = lower w) :
    ∃ d d', wordsetSave toFloat lm (Spec.textLines (rows.map fun r => join c!" " (r.1 :: r.2)) e true) = .ok d ∧
      wordsetSave toFloat lm (Spec.textLines ((rows.filter fun r => lower r.1 = r.1).map
        fun r => join c!" " (r.1 :: r.2)) e true) = .ok d' ∧
      ∀ zero w, wordsetGet lower zero d w = wordsetGet lower zero d' w := by
  obtain ⟨d, h1, h2, -⟩ := C96_save rows e he true hr num hn
  obtain ⟨d', h1', h2', -⟩ := C96_save (rows.filter fun r => lower r.1 = r.1) e he true
    (fun r h => hr r (List.mem_filter.mp h).1) num (fun r h => hn r (List.mem_filter.mp h).1)
  refine ⟨d, d', h1, h1', fun zero w => ?_⟩
  rw [h2, h2']
  have : Spec.lastFor (rows.filter fun r => lower r.1 = r.1) (lower w) = Spec.lastFor rows (lower w) := by
    unfold Spec.lastFor
    rw [List.filter_filter]
    congr 2
    refine List.filter_congr fun a _ => ?_
    by_cases h : a.1 = lower w
    · simp [h, hlow]
    · simp [h]
  rw [this]

/-! ### Cases -/

/-- Digits as numbers. -/
def digitFloat (f : Str) : Except PyErr Nat :=
  match f with
  | [c] => if c.isDigit then .ok (c.toNat - 48) else .error .value
  | _ => .error .value

/-- Vectors of two numbers for three words, one of them unknown to `demoLM`, one with two lines. -/
def demoVectors : List (Str × List Str) :=
  [(c!"the", [c!"1", c!"2"]), (c!"zebra", [c!"x", c!"y"]), (c!"cat", [c!"3", c!"4"]), (c!"the", [c!"5", c!"6"])]

example : (∀ r ∈ demoVectors, ∀ x ∈ r.1 :: r.2, x ≠ [] ∧ ∀ c ∈ x, isSpace c = false) ∧
    ∀ r ∈ demoVectors, demoLM.hasNgram r.1 1 = true → r.2.length = 2 ∧
      ∀ f ∈ r.2, digitFloat f = .ok ((f.headD '0').toNat - 48) := by decide +kernel
example : Spec.textLines (demoVectors.map fun r => join c!" " (r.1 :: r.2)) c!"\n" true =
    c!"the 1 2\nzebra x y\ncat 3 4\nthe 5 6\n" := by decide +kernel
example : wordsetSave digitFloat demoLM c!"the 1 2\nzebra x y\ncat 3 4\nthe 5 6\n" =
    .ok [(c!"the", [5, 6]), (c!"cat", [3, 4])] := by decide +kernel
example : wordsetLen [(c!"the", [5, 6]), (c!"cat", [3, 4])] = 3 := rfl
example : wordsetSave digitFloat demoLM c!"the 1 2\n\ncat 3 4\n" = .error .index ∧
    wordsetSave digitFloat demoLM c!"zebra x\ncat 3 y\n\n" = .error .value := by decide +kernel

/-- Sizes are not checked when saving: a line with too few numbers is kept as it is, and fails when it is used. -/
theorem C96_ragged_kept : ∃ d, wordsetSave digitFloat demoLM c!"the 1 2\ncat 3\n" = .ok d ∧
    (vectorizeSentence Char.toNat (wordsetGet id [0, 0] d) [c!"the"]).toOption.isSome = true ∧
    (vectorizeSentence Char.toNat (wordsetGet id [0, 0] d) [c!"the", c!"cat"]).toOption.isSome = false :=
  ⟨[(c!"the", [1, 2]), (c!"cat", [3])], by decide +kernel, by decide +kernel, by decide +kernel⟩

end Props
