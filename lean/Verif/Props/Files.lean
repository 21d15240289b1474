import Verif.Lemmas.Files
import Verif.Lemmas.Samples
import Verif.Spec.Files

/-! C86: tables and sets loaded from text files. -/

namespace Props
open Py Model

/-- **C86.** `load_dict_from_txt_file` raises `ValueError` iff some line, stripped, does not have exactly one tab; it
raises nothing else. -/
theorem C86_load_dict_raises (content : Str) :
    (loadDict content = .error .value ↔ ∃ line ∈ fileLines content, (strip line).count '\t' ≠ 1) ∧
    ∀ e, loadDict content = .error e → e = .value := by
  unfold loadDict
  rcases mapM_unpack (fileLines content) with ⟨h1, h2⟩ | ⟨rows, h1, h2, _⟩
  · simp only [h1, bind, Except.bind]
    refine ⟨⟨fun _ => h2, fun _ => trivial⟩, ?_⟩
    intro e h; injection h with h; exact h.symm
  · simp only [h1, bind, Except.bind, pure, Except.pure]
    refine ⟨⟨fun h => (by cases h), ?_⟩, fun e h => by cases h⟩
    rintro ⟨l, hl, hc⟩
    exact absurd (h2 l hl) hc

/-- **C86.** Otherwise each line is a row, and each key is mapped to the value of its last row. -/
theorem C86_load_dict_rows (content : Str) (d : Dict Str Str) (h : loadDict content = .ok d) :
    ∃ rows : List (Str × Str), List.Forall₂ (fun line r => strip line = r.1 ++ '\t' :: r.2 ∧ '\t' ∉ r.1 ∧ '\t' ∉ r.2)
        (fileLines content) rows ∧
      d.Wf ∧ ∀ k, Dict.get? d k = Spec.lastFor rows k := by
  unfold loadDict at h
  rcases mapM_unpack (fileLines content) with ⟨h1, _⟩ | ⟨rows, h1, _, h3⟩
  · simp only [h1, bind, Except.bind] at h; cases h
  · simp only [h1, bind, Except.bind, pure, Except.pure, Except.ok.injEq] at h
    subst h
    exact ⟨rows, h3, Dict.Wf.ofPairs _, fun k => by rw [Dict.get?_ofPairs, lastFor_eq]⟩

/-- **C86.** A table written as lines `key⇥value`, with any of the three kinds of line ends, loads as it was: the keys
and values have no tab, no line end and no white space at their ends, and are not empty. The last line may
lack its end. -/
theorem C86_load_dict_written (rows : List (Str × Str)) (e : Str) (he : e ∈ [c!"\n", c!"\r\n", c!"\r"])
    (hr : ∀ r ∈ rows, Spec.Column r.1 ∧ Spec.Column r.2) (closed : Bool) :
    ∃ d, loadDict (Spec.textLines (rows.map fun r => r.1 ++ '\t' :: r.2) e closed) = .ok d ∧
      (∀ k, Dict.get? d k = Spec.lastFor rows k) ∧ ((rows.map Prod.fst).Nodup → d = rows) := by
  have hclean : ∀ l ∈ rows.map (fun r => r.1 ++ '\t' :: r.2), '\n' ∉ l ∧ '\r' ∉ l := by
    intro l hl
    obtain ⟨r, hm, rfl⟩ := List.mem_map.mp hl
    obtain ⟨h1, h2⟩ := hr r hm
    simp only [List.mem_append, List.mem_cons, not_or]
    exact ⟨⟨h1.2.1, by decide, h2.2.1⟩, h1.2.2.1, by decide, h2.2.2.1⟩
  have hne : ∀ l ∈ rows.map (fun r => r.1 ++ '\t' :: r.2), l ≠ [] := by
    intro l hl
    obtain ⟨r, hm, rfl⟩ := List.mem_map.mp hl
    simp
  have hlines := fileLines_textLines he hclean hne closed
  have hunpack : ((fileLines (Spec.textLines (rows.map fun r => r.1 ++ '\t' :: r.2) e closed)).map
      fun l => splitOn (strip l) '\t').mapM unpackPair = .ok rows := by
    have h2 : ∀ (ls : List Str) (rs : List (Str × Str)), List.Forall₂ (fun l (r : Str × Str) =>
        strip l = r.1 ++ '\t' :: r.2 ∧ '\t' ∉ r.1 ∧ '\t' ∉ r.2) ls rs →
        (ls.map fun l => splitOn (strip l) '\t').mapM unpackPair = .ok rs := by
      intro ls rs h
      induction h with
      | nil => rfl
      | cons hh _ ih =>
        simp only [List.map_cons, List.mapM_cons]
        rw [splitOn_pair.mpr hh, ih]
        rfl
    apply h2
    have h3 := List.forall₂_map_left_iff.mp hlines
    have h4 : List.Forall₂ (fun (r : Str × Str) l => r ∈ rows ∧ (l = r.1 ++ '\t' :: r.2 ∨ l = r.1 ++ '\t' :: r.2 ++ c!"\n"))
        rows (fileLines (Spec.textLines (rows.map fun r => r.1 ++ '\t' :: r.2) e closed)) := by
      have := (List.forall₂_and_left (p := fun r => r ∈ rows) rows _).mpr ⟨fun r h => h, h3⟩
      exact this
    refine List.Forall₂.flip (h4.imp ?_)
    rintro r l ⟨hm, hl⟩
    obtain ⟨h1, h2⟩ := hr r hm
    refine ⟨?_, h1.1, h2.1⟩
    have hs : ∀ w : Str, (∀ c ∈ w, isSpace c = true) →
        strip (r.1 ++ '\t' :: r.2 ++ w) = r.1 ++ '\t' :: r.2 := by
      intro w hw
      refine strip_eq (by simp) ?_ ?_ hw
      · intro c hc
        obtain ⟨a, t, ha⟩ := List.exists_cons_of_ne_nil h1.2.2.2.1
        rw [ha] at hc
        exact h1.2.2.2.2.1 c (by rw [ha]; exact hc)
      · intro c hc
        rw [show r.1 ++ '\t' :: r.2 = (r.1 ++ ['\t']) ++ r.2 by simp, List.getLast?_append] at hc
        cases hv : r.2.getLast? with
        | none => exact absurd (List.getLast?_eq_none_iff.mp hv) h2.2.2.2.1
        | some x =>
          rw [hv] at hc
          simp only [Option.some_or, Option.some.injEq] at hc
          subst hc
          exact h2.2.2.2.2.2 _ hv
    rcases hl with rfl | rfl
    · simpa using hs [] (by simp)
    · exact hs c!"\n" (by decide)
  refine ⟨Dict.ofPairs rows, ?_, fun k => by rw [Dict.get?_ofPairs, lastFor_eq], fun h => ofPairs_of_nodup _ h⟩
  unfold loadDict
  simp only [hunpack, bind, Except.bind, pure, Except.pure]

/-- **C86.** A set of words written one per line loads as it was. -/
theorem C86_load_set_written (words : List Str) (e : Str) (he : e ∈ [c!"\n", c!"\r\n", c!"\r"])
    (hw : ∀ w ∈ words, Spec.Column w) (closed : Bool) (w : Str) :
    w ∈ loadSet (Spec.textLines words e closed) ↔ w ∈ words := by
  have hlines := fileLines_textLines he (fun l hl => ⟨(hw l hl).2.1, (hw l hl).2.2.1⟩) (fun l hl => (hw l hl).2.2.2.1)
    closed
  have : loadSet (Spec.textLines words e closed) = words := by
    unfold loadSet
    have h4 := (List.forall₂_and_left (p := fun r => r ∈ words) words _).mpr ⟨fun r h => h, hlines⟩
    have : List.Forall₂ (fun a b => a = b) words ((fileLines (Spec.textLines words e closed)).map strip) := by
      rw [List.forall₂_map_right_iff]
      refine h4.imp ?_
      rintro r l ⟨hm, hl⟩
      obtain ⟨_, _, _, hne, h1, h2⟩ := hw r hm
      rcases hl with rfl | rfl
      · simpa using (strip_eq hne h1 h2 (w := []) (by simp)).symm
      · exact (strip_eq hne h1 h2 (w := c!"\n") (by decide)).symm
    exact (List.forall₂_eq_eq_eq ▸ this).symm
  rw [this]

/-- **C86.** Elements of a loaded set are the stripped lines. -/
theorem C86_load_set (content w : Str) : w ∈ loadSet content ↔ ∃ line ∈ fileLines content, w = strip line := by
  unfold loadSet
  simp [eq_comm]

/-- **C86.** One blank line among the rows makes the table unreadable, although a blank line in a set file
only adds the empty word. -/
theorem C86_blank_line : loadDict c!"went\tgo\n\ngone\tgo\n" = .error .value ∧
    [] ∈ loadSet c!"a\n\nb\n" := by decide +kernel

example : loadDict c!"went\tgo\r\ngone\tgo" = .ok [(c!"went", c!"go"), (c!"gone", c!"go")] := by decide +kernel
example : Spec.textLines [c!"went\tgo", c!"gone\tgo"] c!"\r\n" false = c!"went\tgo\r\ngone\tgo" := by decide +kernel
example : Spec.Column c!"hot dogs" ∧ ¬ Spec.Column c!" dogs" ∧ ¬ Spec.Column c!"" := by decide +kernel
example : loadDict c!"hot dogs\thot dog\nx\ty\nx\tz\n" = .ok [(c!"hot dogs", c!"hot dog"), (c!"x", c!"z")] := by
  decide +kernel
example : loadDict c!"a\tb\tc\n" = .error .value := by decide +kernel

end Props
