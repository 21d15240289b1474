import Verif.Lemmas.ChunkSentences
import Verif.Lemmas.SentLines

/-! # Property C120: sentences of ordinary prose -/

namespace Props
open Py Model

/-- The sentences of a text whose lines consist of ordinary words, quotations and parentheses. -/
theorem C120_sentences (db : CharDB) (text : Str) (ls : List Str) (hl : Spec.Lines text ls) (xss : List (List Spec.Chunk))
    (h : List.Forall₂ (Spec.Paragraph db) ls xss) : sentencize db (tokenize db) text =
      .ok (xss.flatMap fun xs => (Spec.sentencesOf Spec.Chunk.ends xs).map fun s => s.flatMap Spec.Chunk.tokens) := by
  have e : reNewline.split db text = ls := lines_unique (newline_lines db text) hl
  obtain ⟨q, h1, h2⟩ := quotes_all h []
  have hx : ∀ {ls : List Str} {xss : List (List Spec.Chunk)}, List.Forall₂ (Spec.Paragraph db) ls xss →
      ∀ xs ∈ xss, ∃ l, Spec.Paragraph db l xs := by
    intro ls xss h
    induction h with
    | nil => simp
    | cons hp _ ih =>
      intro xs hm
      rcases List.mem_cons.mp hm with rfl | hm
      · exact ⟨_, hp⟩
      · exact ih xs hm
  have hx := hx h
  obtain ⟨br, h3, h4⟩ := brackets_all (fun xs hm x hxm => by
    obtain ⟨l, hp⟩ := hx xs hm
    exact hp.ordinary x hxm) (h2 []) []
  have h5 := h4 []
  unfold sentencize
  simp only [e, h1, h3]
  clear h2 h3 h1 h4 e hl h
  generalize (findBlocksAll db reBracket '⦅' '⦆' _ []).1 = bs at h5
  simp only [List.nil_append, List.append_nil] at h5 ⊢
  induction h5 with
  | nil => rfl
  | @cons b xs bs xss hb _ ih =>
    obtain ⟨wss, k1, k2⟩ := hb
    obtain ⟨l, hp⟩ := hx xs (by simp)
    rw [List.flatMap_cons, List.flatMap_cons, List.mapM_append, line_sentences hp k1 k2, ih fun ys hm => hx ys (by simp [hm])]
    rfl

/-- The chunks in the sentences are those of the line, and only the last chunk of a sentence ends it. -/
theorem C120_grouping {α : Type} (ends : α → Bool) (ps : List α) : (Spec.sentencesOf ends ps).flatten = ps ∧
    (∀ s ∈ Spec.sentencesOf ends ps, s ≠ [] ∧ ∀ p ∈ s.dropLast, ends p = false) ∧
    ∀ s ∈ (Spec.sentencesOf ends ps).dropLast, ∃ p, s.getLast? = some p ∧ ends p = true := by
  induction ps with
  | nil => simp [Spec.sentencesOf]
  | cons p ps ih =>
    obtain ⟨h1, h2, h3⟩ := ih
    rw [Spec.sentencesOf]
    split
    · rename_i he
      refine ⟨by simp [h1], ?_, ?_⟩
      · intro s hs
        rcases List.mem_cons.mp hs with rfl | hs
        · simp
        · exact h2 s hs
      · rcases hps : Spec.sentencesOf ends ps with _ | ⟨t, ts⟩
        · simp
        · rw [hps] at h3
          intro s hs
          rw [List.dropLast_cons_of_ne_nil (by simp), List.mem_cons] at hs
          rcases hs with rfl | hs
          · exact ⟨p, rfl, he⟩
          · exact h3 s hs
    · rename_i he
      rcases hps : Spec.sentencesOf ends ps with _ | ⟨t, ts⟩
      · rw [hps] at h1
        simp at h1
        simp [h1]
      · rw [hps] at h1 h2 h3
        obtain ⟨ht, ht2⟩ := h2 t (by simp)
        refine ⟨by simpa using h1, ?_, ?_⟩
        · intro s hs
          rcases List.mem_cons.mp hs with rfl | hs
          · refine ⟨by simp, fun q hq => ?_⟩
            rw [List.dropLast_cons_of_ne_nil ht, List.mem_cons] at hq
            rcases hq with rfl | hq
            · simpa using he
            · exact ht2 q hq
          · exact h2 s (by simp [hs])
        · intro s hs
          cases ts with
          | nil => simp at hs
          | cons u us =>
            rw [List.dropLast_cons_of_ne_nil (by simp), List.mem_cons] at hs
            rcases hs with rfl | hs
            · obtain ⟨q, hq, hqe⟩ := h3 t (by simp)
              refine ⟨q, ?_, hqe⟩
              rw [List.getLast?_cons, hq]
              rfl
            · exact h3 s (by rw [List.dropLast_cons_of_ne_nil (by simp)]; simp [hs])

def plainWord (w : Str) (mark : Str := []) : Spec.Printed := ⟨[], w, [], [], mark, []⟩

/-- They're late, "so (probably) soon." We cannot wait!
Go (he said "now", twice) on -/
def proseLines : List (List Spec.Chunk) := [
  [.phrase (.word ⟨[], c!"They", c!"'re", [], [], []⟩), .phrase (.word (plainWord c!"late" c!",")),
    .phrase (.quote [plainWord c!"so", ⟨c!"(", c!"probably", [], c!")", [], []⟩, plainWord c!"soon" c!"."] []),
    .phrase (.word (plainWord c!"We")), .phrase (.word (plainWord c!"cannot")), .phrase (.word (plainWord c!"wait" c!"!"))],
  [.phrase (.word (plainWord c!"Go")), .paren [.word (plainWord c!"he"), .word (plainWord c!"said"), .quote [plainWord c!"now"] c!",",
    .word (plainWord c!"twice")] [], .phrase (.word (plainWord c!"on"))]]

theorem proseLines_lines : Spec.Lines c!"They're late, \"so (probably) soon.\" We cannot  wait! \n\tGo (he said \"now\", twice) on"
    [c!"They're late, \"so (probably) soon.\" We cannot  wait!", c!"Go (he said \"now\", twice) on"] :=
  .cut c!"They're late, \"so (probably) soon.\" We cannot  wait!" c!" \n\t" _ _ (by decide) (by decide) (by decide) (by decide)
    (by decide) (.last _ (by decide))

theorem prose_word {p : Spec.Printed} (h : p ∈ [⟨[], c!"They", c!"'re", [], [], []⟩, plainWord c!"late" c!",", plainWord c!"so",
    ⟨c!"(", c!"probably", [], c!")", [], []⟩, plainWord c!"soon" c!".", plainWord c!"We", plainWord c!"cannot",
    plainWord c!"wait" c!"!", plainWord c!"Go", plainWord c!"he", plainWord c!"said", plainWord c!"now", plainWord c!"twice",
    plainWord c!"on"]) : p.Ordinary asciiDB := by
  simp only [List.mem_cons, List.not_mem_nil, or_false] at h
  rcases h with rfl | rfl | rfl | rfl | rfl | rfl | rfl | rfl | rfl | rfl | rfl | rfl | rfl | rfl <;>
    exact ⟨by decide, by decide, by decide, by decide +kernel, by decide, by decide, by decide, by decide, by decide, by decide,
      by decide, by decide, fun _ c hc => by cases hc; decide +kernel, by decide, by decide +kernel⟩

theorem proseLines_ordinary : List.Forall₂ (Spec.Paragraph asciiDB)
    [c!"They're late, \"so (probably) soon.\" We cannot  wait!", c!"Go (he said \"now\", twice) on"] proseLines := by
  refine .cons ⟨by decide +kernel, by decide, ?_, ?_⟩ (.cons ⟨by decide +kernel, by decide, ?_, ?_⟩ .nil)
  · intro x hx
    simp only [List.mem_cons, List.not_mem_nil, or_false] at hx
    rcases hx with rfl | rfl | rfl | rfl | rfl | rfl
    · exact ⟨⟨prose_word (by simp), by decide⟩, by rintro p ⟨⟩; decide⟩
    · exact ⟨⟨prose_word (by simp), by decide⟩, by rintro p ⟨⟩; decide⟩
    · refine ⟨⟨by decide, ?_, ?_, by decide, fun _ => rfl⟩, by rintro p ⟨⟩⟩
      · intro p hp
        exact ⟨prose_word (by simp only [List.mem_cons, List.not_mem_nil, or_false] at hp ⊢; tauto),
          by simp only [List.mem_cons, List.not_mem_nil, or_false] at hp; rcases hp with rfl | rfl | rfl <;> decide⟩
      · exact .cons_cons (by unfold Spec.DotBefore; decide) (.cons_cons (by unfold Spec.DotBefore; decide) (.singleton _))
    · exact ⟨⟨prose_word (by simp), by decide⟩, by rintro p ⟨⟩; decide⟩
    · exact ⟨⟨prose_word (by simp), by decide⟩, by rintro p ⟨⟩; decide⟩
    · exact ⟨⟨prose_word (by simp), by decide⟩, by rintro p ⟨⟩; decide⟩
  · have hd : ∀ w v : Str, w.getLast? ≠ some '.' → Spec.DotBefore asciiDB w v := fun w v h h' => absurd h' h
    exact .cons_cons (hd _ _ (by decide)) (.cons_cons (hd _ _ (by decide)) (.cons_cons (hd _ _ (by decide))
      (.cons_cons (hd _ _ (by decide)) (.cons_cons (hd _ _ (by decide)) (.singleton _)))))
  · intro x hx
    simp only [List.mem_cons, List.not_mem_nil, or_false] at hx
    rcases hx with rfl | rfl | rfl
    · exact ⟨⟨prose_word (by simp), by decide⟩, by rintro p ⟨⟩; decide⟩
    · refine ⟨by decide, ?_, ?_, by decide⟩
      · intro x hx
        simp only [List.mem_cons, List.not_mem_nil, or_false] at hx
        rcases hx with rfl | rfl | rfl | rfl
        · exact ⟨⟨prose_word (by simp), by decide⟩, by rintro p m ⟨⟩⟩
        · exact ⟨⟨prose_word (by simp), by decide⟩, by rintro p m ⟨⟩⟩
        · refine ⟨⟨by decide, ?_, .singleton _, by decide, by decide⟩, by rintro p m ⟨⟩; decide⟩
          intro p hp
          obtain rfl := List.mem_singleton.mp hp
          exact ⟨prose_word (by simp), by decide⟩
        · exact ⟨⟨prose_word (by simp), by decide⟩, by rintro p m ⟨⟩⟩
      · have hd : ∀ w v : Str, w.getLast? ≠ some '.' → Spec.DotBefore asciiDB w v := fun w v h h' => absurd h' h
        exact .cons_cons (hd _ _ (by decide)) (.cons_cons (hd _ _ (by decide)) (.cons_cons (hd _ _ (by decide)) (.singleton _)))
    · exact ⟨⟨prose_word (by simp), by decide⟩, by rintro p ⟨⟩; decide⟩
  · have hd : ∀ w v : Str, w.getLast? ≠ some '.' → Spec.DotBefore asciiDB w v := fun w v h h' => absurd h' h
    exact .cons_cons (hd _ _ (by decide)) (.cons_cons (hd _ _ (by decide)) (.singleton _))

example : sentencize asciiDB (tokenize asciiDB)
    c!"They're late, \"so (probably) soon.\" We cannot  wait! \n\tGo (he said \"now\", twice) on" = .ok [
    [c!"They", c!"'re", c!"late", c!",", c!"\"", c!"so", c!"(", c!"probably", c!")", c!"soon", c!".", c!"\""],
    [c!"We", c!"can", c!"not", c!"wait", c!"!"],
    [c!"Go", c!"(", c!"he", c!"said", c!"\"", c!"now", c!"\"", c!",", c!"twice", c!")", c!"on"]] := by
  rw [C120_sentences asciiDB _ _ proseLines_lines _ proseLines_ordinary]
  decide +kernel

/-- A bracket that is closed after the full stop ends up in the next sentence. -/
example : sentencize asciiDB (tokenize asciiDB) c!"[We left.] Go on" = .ok [
    [c!"[", c!"We", c!"left", c!"."], [c!"]", c!"Go", c!"on"]] := by decide +kernel

/-- The mark for the full stop of a quotation is left in parentheses. -/
example : sentencize asciiDB (tokenize asciiDB) c!"(He said \"No.\") Go on" = .ok [
    [c!"(", c!"He", c!"said", c!"\"", c!"No", c!".", c!"\"", c!"¶", c!")", c!"Go", c!"on"]] := by decide +kernel

end Props
