import Verif.Model.TrainingSamples
import Verif.Spec.Samples
import Verif.Lemmas.Parser

/-! Lemmas on vectors of sentences. -/

namespace Model
open Py Spec

theorem padArray_ok (a : List Nat) (dim : Nat) (h : a.length ≤ dim) :
    padArray a dim = .ok (padTo dim 0 a) := by
  have hs : sliceFrom a (-(dim : Int)) = a := by
    unfold sliceFrom clampIdx
    split
    · have : (-(dim : Int) + (a.length : Int)).toNat = 0 := by omega
      rw [this]; rfl
    · have : min (-(dim : Int)).toNat a.length = 0 := by omega
      rw [this]; rfl
  unfold padArray
  simp only [hs, h, if_true, padTo]

theorem fillColumns_ok (m : List (List Nat)) (dim : Nat) (h : ∀ a ∈ m, a.length ≤ dim) :
    fillColumns m dim = .ok (m.map (padTo dim 0)) := by
  unfold fillColumns
  induction m with
  | nil => rfl
  | cons a m ih =>
    rw [List.mapM_cons, padArray_ok a dim (h a (by simp)), ih fun b hb => h b (by simp [hb])]
    rfl

theorem padCharCodes_ok (m : List (List Nat)) (hl : m.length ≤ 52) (h : ∀ a ∈ m, a.length ≤ 22) :
    padCharCodes m = .ok (m.map (padTo 22 0) ++ List.replicate (52 - m.length) (List.replicate 22 0)) := by
  have e1 : fillColumns (List.replicate (paddedSentLength - m.length) []) paddedWordLength =
      .ok (List.replicate (52 - m.length) (List.replicate 22 0)) := by
    rw [fillColumns_ok]
    · simp [padTo, paddedWordLength, maxWordLength, paddedSentLength, maxSentLength]
    · intro a ha
      rw [(List.mem_replicate.mp ha).2]; simp
  have hs : sliceTo m (paddedSentLength : Int) = m := by
    unfold sliceTo clampIdx
    rw [if_neg (by omega), List.take_of_length_le]
    have : paddedSentLength = 52 := rfl
    omega
  unfold padCharCodes
  rw [e1, hs, fillColumns_ok m paddedWordLength h]
  rfl

theorem encodeChars_eq (code : Char → Nat) (w : Str) :
    encodeChars code w = (['†'] ++ lastN 20 w ++ ['‡']).map code := by
  unfold encodeChars lastN
  have hm : maxWordLength = 20 := rfl
  simp only [hm]
  split
  · rename_i h
    unfold sliceFrom clampIdx
    rw [if_neg (by omega)]
    have : min ((w.length : Int) - (20 : Nat)).toNat w.length = w.length - 20 := by omega
    rw [this]
  · rename_i h
    rw [show w.length - 20 = 0 by omega]; rfl

theorem encodeChars_length (code : Char → Nat) (w : Str) : (encodeChars code w).length ≤ 22 := by
  rw [encodeChars_eq]
  simp [lastN]
  omega

theorem padWordVectors_ok {α} [Zero α] (m : List (List α)) (D : Nat) (hne : m ≠ []) (hl : m.length ≤ 52)
    (h : ∀ a ∈ m, a.length = D) :
    padWordVectors m = .ok (m ++ List.replicate (52 - m.length) (List.replicate D 0)) := by
  cases m with
  | nil => exact absurd rfl hne
  | cons f m =>
    have hf : f.length = D := h f (by simp)
    have ha : ((f :: m).all fun a => decide (a.length = f.length)) = true := by
      rw [List.all_eq_true]
      intro a ha
      simp [h a ha, hf]
    have hp : paddedSentLength = 52 := rfl
    unfold padWordVectors
    simp only [hf] at ha
    simp only [hp, hl, if_true, hf, ha]

theorem vectorizeSentence_ok {α} [Zero α] (code : Char → Nat) (vec : Str → List α) (D : Nat)
    (hv : ∀ w, (vec w).length = D) (tokens : List Str) (hn : tokens.length ≤ 50) :
    vectorizeSentence code vec tokens = .ok (tokens.length + 2,
      (sentRows tokens).map (wordRow code) ++ List.replicate (50 - tokens.length) (List.replicate 22 0),
      (sentRows tokens).map vec ++ List.replicate (50 - tokens.length) (List.replicate D 0)) := by
  have hl : (sentRows tokens).length = tokens.length + 2 := by simp [sentRows]
  have h1 := padCharCodes_ok ((sentRows tokens).map (encodeChars code)) (by simp [hl]; omega) (by
    intro a ha
    obtain ⟨w, -, rfl⟩ := List.mem_map.mp ha
    exact encodeChars_length code w)
  have h2 := padWordVectors_ok ((sentRows tokens).map vec) D (by simp [sentRows]) (by simp [hl]; omega) (by
    intro a ha
    obtain ⟨w, -, rfl⟩ := List.mem_map.mp ha
    exact hv w)
  have hm : ¬ tokens.length > maxSentLength := by unfold maxSentLength; omega
  unfold vectorizeSentence
  rw [if_neg hm]
  change (do
    let cc ← padCharCodes ((sentRows tokens).map (encodeChars code))
    let wv ← padWordVectors ((sentRows tokens).map vec)
    return ((sentRows tokens).length, cc, wv) : Except PyErr _) = _
  rw [h1, h2]
  simp only [hl, List.length_map, List.map_map]
  have e : padTo 22 0 ∘ encodeChars code = wordRow code := by
    funext w; simp only [Function.comp, encodeChars_eq, wordRow]
  rw [e, show 52 - (tokens.length + 2) = 50 - tokens.length by omega]
  rfl

theorem makeMask_ok (i : Nat) (h : i < 52) : makeMask i = .ok (oneHot 52 i) := by
  have hp : paddedSentLength = 52 := rfl
  unfold makeMask
  rw [hp, if_pos h]
  congr 1
  apply List.ext_getElem
  · simp [oneHot]
  · intro k h1 h2
    simp only [oneHot, List.getElem_map, List.getElem_range, List.getElem_set, List.getElem_replicate]
    split <;> rename_i e
    · simp [e]
    · simp [Ne.symm e]

/-! ### Charset -/

theorem zipIdx_keys (l : List Char) (k : Nat) : Dict.keys (l.zipIdx k) = l := by
  induction l generalizing k with
  | nil => rfl
  | cons a l ih => simp [ih]

theorem ofPairs_of_nodup {κ ν : Type} [DecidableEq κ] (l : List (κ × ν)) (h : (Dict.keys l).Nodup) :
    Dict.ofPairs l = l := by
  unfold Dict.ofPairs
  suffices ∀ d : Dict κ ν, (Dict.keys (d ++ l)).Nodup → l.foldl (fun d p => Dict.set d p.1 p.2) d = d ++ l from
    this [] h
  clear h
  induction l with
  | nil => intro d _; simp
  | cons p l ih =>
    intro d hd
    have hp : p.1 ∉ Dict.keys d := by
      simp only [Dict.keys, List.map_append, List.map_cons, List.nodup_append] at hd
      intro hm
      exact hd.2.2 _ hm _ (by simp) rfl
    rw [List.foldl_cons, Dict.set_of_not_mem hp, ih _ (by simpa using hd)]
    simp

theorem codes_eq (chars : List Char) (h : chars.Nodup) : Charset.codes chars = chars.zipIdx := by
  unfold Charset.codes
  exact ofPairs_of_nodup _ (by rw [zipIdx_keys]; exact h)

theorem codes_get? (chars : List Char) (h : chars.Nodup) (c : Char) (i : Nat) :
    (Charset.codes chars).get? c = some i ↔ chars[i]? = some c := by
  rw [codes_eq chars h]
  have hw : Dict.Wf (chars.zipIdx : Dict Char Nat) := by unfold Dict.Wf; rw [zipIdx_keys]; exact h
  rw [← Dict.mem_iff_get? hw, List.mem_zipIdx_iff_getElem?]

theorem load_codes (chars : List Char) (h : chars.Nodup) (hne : chars ≠ []) :
    Charset.load (Charset.codes chars) = .ok { charCode := Charset.codes chars, unkCode := chars.length } := by
  have hv : (Charset.codes chars).values = List.range chars.length := by
    rw [codes_eq chars h]
    simp [Dict.values, List.zipIdx_map_snd, List.range_eq_range']
  have hpos : 0 < chars.length := List.length_pos_of_ne_nil hne
  have hm : (List.range chars.length).max? = some (chars.length - 1) := by
    rw [List.max?_eq_some_iff]
    refine ⟨by simp; omega, ?_⟩
    intro b hb
    have := List.mem_range.mp hb
    omega
  unfold Charset.load
  rw [hv, hm]
  simp only [show chars.length - 1 + 1 = chars.length by omega]

theorem charsetChars_nodup : charsetChars.Nodup := by decide +kernel

end Model
