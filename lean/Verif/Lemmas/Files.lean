import Verif.Model.Files
import Verif.Spec.Files
import Verif.Lemmas.LangModel
import Verif.Lemmas.LmFile

/-! Helper lemmas on the loaders of text files. -/

namespace Model
open Py

theorem universalNewlines_append (rest : Str) : ∀ (b : Str), '\r' ∉ b →
    universalNewlines (b ++ rest) = b ++ universalNewlines rest
  | [], _ => rfl
  | c :: b, h => by
    have hc : c ≠ '\r' := fun e => h (by rw [e]; simp)
    have ih := universalNewlines_append rest b (fun hm => h (List.mem_cons_of_mem _ hm))
    rw [List.cons_append, universalNewlines, ih]
    · rfl
    · intro t' h1; exact fun _ => hc h1
    · exact hc

theorem universalNewlines_cr {rest : Str} (h : rest.head? ≠ some '\n') :
    universalNewlines ('\r' :: rest) = '\n' :: universalNewlines rest := by
  cases rest with
  | nil => rfl
  | cons c t =>
    have : c ≠ '\n' := fun e => h (by rw [e]; rfl)
    rw [universalNewlines]
    intro t' h1
    injection h1 with h1
    exact this h1

/-- The ways in which a line may end. -/
def lineEnds : List Str := [c!"\n", c!"\r\n", c!"\r"]

theorem universalNewlines_lines {e last : Str} (he : e ∈ lineEnds) (hl : '\n' ∉ last ∧ '\r' ∉ last) :
    ∀ (ls : List Str), (∀ l ∈ ls, '\n' ∉ l ∧ '\r' ∉ l) →
      universalNewlines ((ls.map (· ++ e)).flatten ++ last) = (ls.map (· ++ c!"\n")).flatten ++ last
  | [], _ => by simpa using universalNewlines_id last hl.2
  | l :: ls, h => by
    have ih := universalNewlines_lines he hl ls (fun x hx => h x (List.mem_cons_of_mem _ hx))
    simp only [List.map_cons, List.flatten_cons, List.append_assoc]
    rw [universalNewlines_append _ l (h l (by simp)).2]
    congr 1
    have hhead : e = c!"\r" → ((ls.map (· ++ e)).flatten ++ last).head? ≠ some '\n' := by
      rintro rfl hh
      cases ls with
      | nil =>
        simp only [List.map_nil, List.flatten_nil, List.nil_append] at hh
        exact hl.1 (List.mem_of_mem_head? hh)
      | cons l' ls =>
        cases l' with
        | nil => simp at hh
        | cons c l' =>
          simp only [List.map_cons, List.flatten_cons, List.cons_append, List.head?_cons, Option.some.injEq] at hh
          exact (h (c :: l') (by simp)).1 (by rw [hh]; simp)
    simp only [lineEnds, List.mem_cons, List.not_mem_nil, or_false] at he
    rcases he with rfl | rfl | rfl
    · rw [universalNewlines_append _ c!"\n" (by decide), ih]
    · rw [← ih]; rfl
    · have := universalNewlines_cr (hhead rfl)
      simp only [List.cons_append, List.nil_append] at this ⊢
      rw [this, ih]

theorem fileLinesAux_flatten {last : Str} (hl : '\n' ∉ last) : ∀ (ls : List Str), (∀ l ∈ ls, '\n' ∉ l) →
    fileLinesAux ((ls.map (· ++ c!"\n")).flatten ++ last) [] =
      ls.map (· ++ c!"\n") ++ (if last.isEmpty then [] else [last])
  | [], _ => by
    have key : ∀ (t cur : Str), '\n' ∉ t →
        fileLinesAux t cur = if (cur.reverse ++ t).isEmpty then [] else [cur.reverse ++ t] := by
      intro t
      induction t with
      | nil => intro cur _; simp [fileLinesAux]
      | cons c t ih =>
        intro cur h
        have hc : c ≠ '\n' := fun e => h (by rw [e]; simp)
        rw [fileLinesAux, if_neg hc, ih (c :: cur) (fun hm => h (List.mem_cons_of_mem _ hm))]
        simp
    simpa using key last [] hl
  | l :: ls, h => by
    have ih := fileLinesAux_flatten hl ls (fun x hx => h x (List.mem_cons_of_mem _ hx))
    simp only [List.map_cons, List.flatten_cons, List.append_assoc]
    have := fileLinesAux_line ((ls.map (· ++ c!"\n")).flatten ++ last) l [] (h l (by simp))
    simp only [List.append_assoc] at this
    rw [this, ih]
    simp

/-- The lines read from a file whose lines end alike, the last one possibly without an end. -/
theorem fileLines_ends {e last : Str} (he : e ∈ lineEnds) (hl : '\n' ∉ last ∧ '\r' ∉ last) (ls : List Str)
    (h : ∀ l ∈ ls, '\n' ∉ l ∧ '\r' ∉ l) : fileLines ((ls.map (· ++ e)).flatten ++ last) =
      ls.map (· ++ c!"\n") ++ (if last.isEmpty then [] else [last]) := by
  unfold fileLines
  rw [universalNewlines_lines he hl ls h, fileLinesAux_flatten hl.1 ls (fun l hm => (h l hm).1)]

theorem intercalate_lines (e last : Str) : ∀ (ls : List Str),
    List.intercalate e (ls ++ [last]) = (ls.map (· ++ e)).flatten ++ last
  | [] => by simp [List.intercalate]
  | l :: ls => by
    have ih := intercalate_lines e last ls
    have h : ls ++ [last] ≠ [] := by simp
    obtain ⟨x, xs, hx⟩ := List.exists_cons_of_ne_nil h
    simp only [List.cons_append, List.map_cons, List.flatten_cons, List.append_assoc]
    rw [← ih, hx]
    simp [List.intercalate]

/-- The lines read from a text written as lines that are not blank. -/
theorem fileLines_textLines {e : Str} (he : e ∈ lineEnds) {ls : List Str} (h : ∀ l ∈ ls, '\n' ∉ l ∧ '\r' ∉ l)
    (hne : ∀ l ∈ ls, l ≠ []) (closed : Bool) :
    List.Forall₂ (fun r l => l = r ∨ l = r ++ c!"\n") ls (fileLines (Spec.textLines ls e closed)) := by
  have hself : ∀ ls : List Str, List.Forall₂ (fun r l => l = r ∨ l = r ++ c!"\n") ls (ls.map (· ++ c!"\n")) := by
    intro ls
    rw [List.forall₂_map_right_iff]
    exact List.forall₂_same.mpr fun _ _ => Or.inr rfl
  unfold Spec.textLines
  split
  · have := fileLines_ends he (last := []) (by simp) ls h
    rw [List.append_nil] at this
    rw [this]
    simpa using hself ls
  · rcases List.eq_nil_or_concat ls with rfl | ⟨ls', last, rfl⟩
    · exact .nil
    · rw [List.concat_eq_append] at *
      rw [intercalate_lines, fileLines_ends he (h last (by simp)) ls' (fun l hl => h l (by simp [hl]))]
      have : last.isEmpty = false := by
        have := hne last (by simp)
        simpa using this
      rw [this]
      exact List.rel_append (hself ls') (.cons (Or.inl rfl) .nil)

/-! ### Tables -/

theorem unpackPair_ok {l : List Str} {r : Str × Str} : unpackPair l = .ok r ↔ l = [r.1, r.2] := by
  unfold unpackPair
  split
  · rename_i a b
    simp [Prod.ext_iff]
  · rename_i h
    simp only [reduceCtorEq, false_iff]
    rintro rfl
    exact h _ _ rfl

theorem unpackPair_error {l : List Str} {e : PyErr} (h : unpackPair l = .error e) : e = .value := by
  unfold unpackPair at h
  split at h
  · cases h
  · injection h with h; exact h.symm

theorem count_join {sep : Char} : ∀ (l : List Str), (∀ x ∈ l, sep ∉ x) → (join [sep] l).count sep = l.length - 1
  | [], _ => rfl
  | [x], h => by simpa [join] using List.count_eq_zero_of_not_mem (h x (by simp))
  | x :: y :: l, h => by
    have ih := count_join (y :: l) (fun z hz => h z (List.mem_cons_of_mem _ hz))
    rw [join, List.append_assoc, List.count_append, List.count_append, ih,
      List.count_eq_zero_of_not_mem (h x (by simp))]
    simp [Nat.add_comm]

/-- The number of pieces is one more than the number of separators. -/
theorem splitOn_length (t : Str) (sep : Char) : (splitOn t sep).length = t.count sep + 1 := by
  obtain ⟨h1, h2, h3⟩ := splitOn_spec t sep
  have := count_join _ h1
  rw [h2] at this
  have := List.length_pos_of_ne_nil h3
  omega

theorem splitOn_pair {t k v : Str} : splitOn t '\t' = [k, v] ↔ t = k ++ '\t' :: v ∧ '\t' ∉ k ∧ '\t' ∉ v := by
  constructor
  · intro h
    obtain ⟨h1, h2, _⟩ := splitOn_spec t '\t'
    rw [h] at h1 h2
    refine ⟨?_, h1 k (by simp), h1 v (by simp)⟩
    rw [← h2]; simp [join]
  · rintro ⟨rfl, hk, hv⟩
    rw [splitOn_sep _ hk, splitOn_no_sep hv]

/-- The rows of lines of two columns. -/
theorem mapM_unpack (lines : List Str) :
    ((lines.map fun l => splitOn (strip l) '\t').mapM unpackPair = .error .value ∧
      ∃ l ∈ lines, (strip l).count '\t' ≠ 1) ∨
    ∃ rows, (lines.map fun l => splitOn (strip l) '\t').mapM unpackPair = .ok rows ∧
      (∀ l ∈ lines, (strip l).count '\t' = 1) ∧
      List.Forall₂ (fun (l : Str) (r : Str × Str) => strip l = r.1 ++ '\t' :: r.2 ∧ '\t' ∉ r.1 ∧ '\t' ∉ r.2) lines rows := by
  induction lines with
  | nil => right; exact ⟨[], rfl, by simp, .nil⟩
  | cons l ls ih =>
    simp only [List.map_cons, List.mapM_cons]
    by_cases hc : (strip l).count '\t' = 1
    · have hlen := splitOn_length (strip l) '\t'
      rw [hc] at hlen
      obtain ⟨k, v, hkv⟩ := List.length_eq_two.mp hlen
      have hp := splitOn_pair.mp hkv
      rw [hkv]
      rcases ih with ⟨h1, x, hx, hx'⟩ | ⟨rows, h1, h2, h3⟩
      · left
        rw [h1]
        exact ⟨rfl, x, List.mem_cons_of_mem _ hx, hx'⟩
      · right
        rw [h1]
        refine ⟨(k, v) :: rows, rfl, ?_, .cons hp h3⟩
        intro x hx
        rcases List.mem_cons.mp hx with rfl | hx
        · exact hc
        · exact h2 x hx
    · left
      have : unpackPair (splitOn (strip l) '\t') = .error .value := by
        cases h : unpackPair (splitOn (strip l) '\t') with
        | error e => rw [unpackPair_error h]
        | ok r =>
          have := congrArg List.length (unpackPair_ok.mp h)
          rw [splitOn_length] at this
          simp at this
          simp [this] at hc
      rw [this]
      exact ⟨rfl, l, by simp, hc⟩

end Model
