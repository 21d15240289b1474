import Verif.Lemmas.SentCall

/-! Facts about the sentencizer that hold for all texts: tokens do not contain characters beyond ASCII that the text does
not contain, the lines of a text, texts without quotes and brackets. -/

namespace Model
open Py

/-! ### Characters of tokens -/

/-- Literals of a replacement are ASCII. -/
def asciiTpl (tpl : List Tp) : Bool := tpl.all fun
  | .lit c => decide (c.toNat < 128)
  | .ref _ => true

theorem asciiTpl_lit {tpl : List Tp} (h : asciiTpl tpl = true) {c : Char} (hc : Tp.lit c ∈ tpl) : c.toNat < 128 := by
  have := List.all_eq_true.mp h _ hc
  simpa using this

theorem subAll_chars {db : CharDB} : ∀ {rules : List SubRule} {text : Str}, (∀ r ∈ rules, asciiTpl r.2 = true) →
    ∀ c ∈ subAll db rules text, c ∈ text ∨ c.toNat < 128
  | [], _, _, c, hc => .inl hc
  | r :: rules, text, h, c, hc => by
    have hc' : c ∈ subAll db rules (r.1.sub db r.2 text) := hc
    rcases subAll_chars (fun r hr => h r (by simp [hr])) c hc' with h1 | h1
    · rcases Re.sub_mem h1 with h2 | h2
      · exact .inl h2
      · exact .inr (asciiTpl_lit (h r (by simp)) h2)
    · exact .inr h1

theorem join_chars {c : Char} : ∀ {ws : List Str}, c ∈ join c!" " ws → c = ' ' ∨ ∃ w ∈ ws, c ∈ w
  | [], h => by simp [join] at h
  | [w], h => by
    rw [show join c!" " [w] = w from by simp [join]] at h
    exact .inr ⟨w, by simp, h⟩
  | w :: v :: ws, h => by
    rw [show join c!" " (w :: v :: ws) = w ++ c!" " ++ join c!" " (v :: ws) from by simp [join]] at h
    simp only [List.mem_append, List.mem_singleton] at h
    rcases h with (h | h) | h
    · exact .inr ⟨w, by simp, h⟩
    · exact .inl h
    · rcases join_chars h with h | ⟨x, hx, h⟩
      · exact .inl h
      · exact .inr ⟨x, by simp [hx], h⟩

theorem splitWs_chars {t w : Str} (hw : w ∈ splitWs t) {c : Char} (hc : c ∈ w) : c ∈ t := by
  have : c ∈ Spec.ink t := by
    rw [← ink_flatten]
    exact List.mem_flatten.mpr ⟨w, hw, hc⟩
  exact List.mem_of_mem_filter this

theorem strip_chars {t : Str} {c : Char} (h : c ∈ Py.strip t) : c ∈ t := by
  unfold Py.strip at h
  rw [List.mem_reverse] at h
  have := (List.dropWhile_sublist _).subset h
  rw [List.mem_reverse] at this
  exact (List.dropWhile_sublist _).subset this

theorem sanitize_chars {db : CharDB} {rules : List SubRule} (h : ∀ r ∈ rules, asciiTpl r.2 = true) {text : Str} {c : Char}
    (hc : c ∈ sanitize db rules text) : c ∈ text ∨ c.toNat < 128 := by
  rcases join_chars hc with rfl | ⟨w, hw, hc⟩
  · exact .inr (by decide)
  · rcases subAll_chars h c (splitWs_chars hw hc) with h | h
    · exact .inl (strip_chars h)
    · exact .inr h

theorem replaceFrom_chars {old new : Str} {c : Char} : ∀ {n : Nat} {s : Str}, c ∈ replaceFrom old new n s → c ∈ new ∨ c ∈ s
  | 0, s, h => .inr h
  | n + 1, s, h => by
    rw [replaceFrom.eq_def] at h
    simp only at h
    split at h
    · rcases List.mem_append.mp h with h | h
      · exact .inl h
      · rcases replaceFrom_chars h with h | h
        · exact .inl h
        · exact .inr (List.mem_of_mem_drop h)
    · cases s with
      | nil => cases h
      | cons d s =>
        rcases List.mem_cons.mp h with rfl | h
        · exact .inr (by simp)
        · rcases replaceFrom_chars h with h | h
          · exact .inl h
          · exact .inr (by simp [h])

theorem protectKey_chars (i : Nat) : ∀ c ∈ protectKey i, c.toNat < 128 := by
  intro c hc
  simp only [protectKey, List.mem_append] at hc
  rcases hc with (hc | hc) | hc
  · revert c; decide
  · by_contra h
    refine natRepr_no (n := i) (c := c) ?_ hc
    rw [Bool.eq_false_iff]
    intro hd
    have h1 := Char.isDigit_iff_toNat.mp hd
    have h9 : '9'.toNat = 57 := rfl
    omega
  · revert c; decide

/-- All characters of a state of the protection loop are allowed. -/
structure PChars (A : Char → Prop) (s : PState) : Prop where
  text : ∀ c ∈ s.text, A c
  vals : ∀ kv ∈ s.dict, ∀ c ∈ kv.2, A c

theorem dictSet_mem {k v : Str} : ∀ {d : Dict Str Str} {kv : Str × Str}, kv ∈ Dict.set d k v → kv ∈ d ∨ kv = (k, v)
  | [], kv, h => by simpa [Dict.set] using h
  | (a, b) :: d, kv, h => by
    rw [Dict.set] at h
    split at h
    · rcases List.mem_cons.mp h with h | h
      · rename_i hk _
        rw [hk] at h
        exact .inr h
      · exact .inl (by simp [h])
    · rcases List.mem_cons.mp h with h | h
      · exact .inl (by simp [h])
      · rcases dictSet_mem h with h | h
        · exact .inl (by simp [h])
        · exact .inr h

theorem protectStep_chars {db : CharDB} {A : Char → Prop} (hA : ∀ c : Char, c.toNat < 128 → A c) {pat : Re} {s s' : PState}
    (h : protectStep db pat s = some s') (hs : PChars A s) : PChars A s' := by
  unfold protectStep at h
  rcases hm : pat.search db s.text with _ | token
  · rw [hm] at h; cases h
  · rw [hm] at h
    simp only [Option.some.injEq] at h
    subst h
    obtain ⟨-, st, t, -, -, -, ht⟩ := Re.search_some hm
    replace ht : token <:+: s.text := ⟨_, _, ht.symm⟩
    constructor
    · intro c hc
      rcases replaceFrom_chars hc with h | h
      · exact hA c (protectKey_chars _ c h)
      · exact hs.text c h
    · intro kv hkv c hc
      rcases dictSet_mem hkv with h | rfl
      · exact hs.vals kv h c hc
      · exact hs.text c (ht.subset hc)

theorem protectLoop_chars {db : CharDB} {A : Char → Prop} (hA : ∀ c : Char, c.toNat < 128 → A c) {pat : Re} :
    ∀ {n : Nat} {s s' : PState}, protectLoop db pat n s = some s' → PChars A s → PChars A s'
  | 0, s, s', h, _ => by cases h
  | n + 1, s, s', h, hs => by
    rw [protectLoop] at h
    rcases hm : protectStep db pat s with _ | s1
    · rw [hm] at h
      cases h
      exact hs
    · rw [hm] at h
      exact protectLoop_chars hA h (protectStep_chars hA hm hs)

theorem protectFold_chars {db : CharDB} {A : Char → Prop} (hA : ∀ c : Char, c.toNat < 128 → A c) {n : Nat} :
    ∀ {rs : List Re} {s s' : PState}, rs.foldlM (fun s pat => protectLoop db pat n s) s = some s' → PChars A s → PChars A s'
  | [], s, s', h, hs => by cases h; exact hs
  | r :: rs, s, s', h, hs => by
    rw [List.foldlM_cons] at h
    rcases hm : protectLoop db r n s with _ | s1
    · rw [hm] at h; cases h
    · rw [hm] at h
      exact protectFold_chars hA h (protectLoop_chars hA hm hs)

theorem unprotect_chars {A : Char → Prop} : ∀ {d : Dict Str Str} {t : Str}, (∀ kv ∈ d, ∀ c ∈ kv.2, A c) → (∀ c ∈ t, A c) →
    ∀ c ∈ unprotect d t, A c
  | [], t, _, ht => ht
  | kv :: d, t, hd, ht => by
    intro c hc
    have hc' : c ∈ unprotect d (strReplace kv.1 kv.2 t) := hc
    refine unprotect_chars (fun x hx => hd x (by simp [hx])) ?_ c hc'
    intro c hc
    rcases replaceFrom_chars hc with h | h
    · exact hd kv (by simp) c h
    · exact ht c h

theorem splitDots_chars {db : CharDB} {t w : Str} (hw : w ∈ splitDots db t) {c : Char} (hc : c ∈ w) : c ∈ t ∨ c.toNat < 128 := by
  unfold splitDots at hw
  split at hw
  · rw [List.mem_singleton] at hw
    subst hw
    exact .inl hc
  · exact subAll_chars (by decide) c (splitWs_chars hw hc)

theorem segment_chars {db : CharDB} {t : Str} {c : Char} (hc : c ∈ segment db t) : c ∈ t ∨ c.toNat < 128 := by
  unfold segment at hc
  simp only at hc
  rcases subAll_chars (by decide) c hc with hc | hc
  swap
  · exact .inr hc
  rcases subAll_chars (by decide) c hc with hc | hc
  swap
  · exact .inr hc
  rcases join_chars hc with rfl | ⟨w, hw, hc⟩
  · exact .inr (by decide)
  rcases subAll_chars (by decide) c (splitWs_chars hw hc) with hc | hc
  swap
  · exact .inr hc
  rcases join_chars hc with rfl | ⟨w, hw, hc⟩
  · exact .inr (by decide)
  obtain ⟨v, hv, hw⟩ := List.mem_flatMap.mp hw
  rcases splitDots_chars hw hc with hc | hc
  swap
  · exact .inr hc
  rcases Re.sub_mem (splitWs_chars hv hc) with hc | hc
  swap
  · exact .inr (asciiTpl_lit (tpl := tokAlwaysSplit.2) (by decide) hc)
  exact subAll_chars (by decide) c hc

/-- Every character of a token is a character of the text or ASCII. -/
theorem tokenize_chars (db : CharDB) (text : Str) : ∀ t ∈ tokenize db text, ∀ c ∈ t, c ∈ text ∨ c.toNat < 128 := by
  intro t ht c hc
  by_cases hne : text = []
  · subst hne
    rw [show tokenize db [] = [[]] from rfl, List.mem_singleton] at ht
    subst ht
    cases hc
  obtain ⟨p, h1, -, h2⟩ := tokenize_eq db hne
  rw [h2] at ht
  have hA : ∀ c : Char, c.toNat < 128 → c ∈ text ∨ c.toNat < 128 := fun _ h => .inr h
  have hp : PChars (fun c => c ∈ text ∨ c.toNat < 128) p :=
    protectFold_chars hA (h1 _ (Nat.lt_succ_self _)) ⟨fun c hc => sanitize_chars (by decide) hc, by simp⟩
  refine unprotect_chars hp.vals (fun c hc => ?_) c (splitWs_chars ht hc)
  rcases segment_chars hc with h | h
  · exact hp.text c h
  · exact .inr h

end Model
