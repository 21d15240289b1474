import Verif.Lemmas.Reach

/-! # The tokenizer between protection and restoration -/

namespace Model
open Py

/-! ### Units of the tokenizer -/

/-- The blocks that stand for symbols. -/
def Sym (s : Str) : Prop := s ∈ symVal.map Prod.fst

/-- The markers of the sentencizer. -/
def Mark (s : Str) : Prop := ∃ n, s = '༺' :: (natRepr n ++ ['༻']) ∨ s = '⦅' :: (natRepr n ++ ['⦆'])

/-- Plain characters are no delimiters; a block is the block of a symbol, a key of the dictionary or a marker. -/
def U.Good (D : Char → Bool) (dict : Dict Str Str) : U → Prop
  | .ch c => D c = false
  | .bk s => BlkOk D s ∧ (Sym s ∨ ((∃ i, s = protectKey i) ∧ ∃ v, Dict.get? dict s = some v) ∨ Mark s)

theorem U.Good.ok {D : Char → Bool} {dict : Dict Str Str} {u : U} (h : u.Good D dict) : u.Ok D := by
  cases u with
  | ch c => exact h
  | bk s => exact h.1

theorem digit_not_space {c : Char} (h : c.isDigit = true) : isSpace c = false := by
  simp only [Char.isDigit, Bool.and_eq_true, decide_eq_true_eq, ge_iff_le, UInt32.le_iff_toNat_le] at h
  have h1 : 48 ≤ c.toNat := h.1
  have h2 : c.toNat ≤ 57 := h.2
  simp [isSpace]
  omega

theorem delim_not_space {c : Char} (h : isDelim c = true ∨ isName c = true) : isSpace c = false := by
  rcases h with h | h
  · have := List.contains_iff_mem.mp h
    clear h
    revert c
    decide
  · unfold isName at h
    rw [Bool.or_eq_true] at h
    rcases h with h | h
    · exact digit_not_space h
    · have := List.contains_iff_mem.mp h
      clear h
      revert c
      decide

theorem BlkOk.tight {D : Char → Bool} (hD : ∀ c, D c = true → isDelim c = true) {s : Str} (h : BlkOk D s) :
    (U.bk s).Tight := by
  obtain ⟨a, mid, b, rfl, ha, hb, hm⟩ := h
  refine ⟨by simp, ?_⟩
  intro c hc
  rw [List.mem_cons, List.mem_append, List.mem_singleton] at hc
  rcases hc with rfl | hc | rfl
  · exact delim_not_space (.inl (hD _ ha))
  · exact delim_not_space ((hm c hc).imp (hD c) id)
  · exact delim_not_space (.inl (hD _ hb))

theorem U.Good.tight {D : Char → Bool} (hD : ∀ c, D c = true → isDelim c = true) {dict : Dict Str Str} {u : U}
    (h : u.Good D dict) : u.Tight := by
  cases u with
  | ch c => trivial
  | bk s => exact h.1.tight hD

theorem sym_good {D : Char → Bool} (hD' : D '_' = true) (dict : Dict Str Str) {s : Str} (h : Sym s) :
    (U.bk s).Good D dict := by
  refine ⟨?_, .inl h⟩
  simp only [Sym, symVal, List.map_cons, List.map_nil, List.mem_cons, List.not_mem_nil, or_false] at h
  have key : ∀ mid : Str, (mid.all isName = true) → BlkOk D ('_' :: (mid ++ ['_'])) := fun mid hm =>
    ⟨'_', mid, '_', rfl, hD', hD', fun c hc => .inr (List.all_eq_true.mp hm c hc)⟩
  rcases h with rfl | rfl | rfl | rfl | rfl
  · exact key c!"NSD" (by decide)
  · exact key c!"NSGE" (by decide)
  · exact key c!"NSLE" (by decide)
  · exact key c!"RNSGE" (by decide)
  · exact key c!"RNSLE" (by decide)

theorem Rewr.all {G : U → Prop} {P : Str → List U → Prop} (h : ∀ w e, P w e → ∀ u ∈ e, G u) {a b : List U}
    (hr : Rewr P a b) (ha : ∀ u ∈ a, G u) : ∀ u ∈ b, G u := by
  induction hr with
  | nil => exact ha
  | keep u _ ih =>
    intro v hv
    rcases List.mem_cons.mp hv with rfl | hv
    · exact ha _ (by simp)
    · exact ih (fun u hu => ha u (by simp [hu])) v hv
  | repl hp _ ih =>
    intro v hv
    rcases List.mem_append.mp hv with hv | hv
    · exact h _ _ hp v hv
    · exact ih (fun u hu => ha u (by simp [hu])) v hv

/-! ### Static checks -/

def delims : List Char := ['_', '༺', '༻', '⦅', '⦆']

theorem isDelim_iff {c : Char} : isDelim c = true ↔ c ∈ delims := List.contains_iff_mem

theorem delims_digit (db : CharDB) : ∀ d ∈ delims, db.digit d = false ∧ isSpace d = false := by
  intro d hd
  refine ⟨?_, delim_not_space (.inl (isDelim_iff.mpr hd))⟩
  by_cases h : d = '_'
  · subst h
    rw [db.digit_ascii '_' (by decide)]
    decide
  · rcases hb : db.digit d with _ | _
    · rfl
    · have h1 := db.digit_word d hb
      rw [db.word_marks d (by
        simp only [delims, List.mem_cons, List.not_mem_nil, or_false] at hd
        rcases hd with rfl | rfl | rfl | rfl | rfl
        · exact absurd rfl h
        all_goals decide)] at h1
      cases h1

/-- The pattern eats no delimiter and something that does not occur in names. -/
def safeRe (r : Re) : Bool := r.avoids delims && r.needs fun c => !isName c

theorem safeRe_safe (db : CharDB) {r : Re} (h : safeRe r = true) : Safe db r := by
  rw [safeRe, Bool.and_eq_true] at h
  intro s t w ht he
  refine ⟨fun c hc => ?_, ?_⟩
  · have := Re.avoids_run (delims_digit db) h.1 s t w ht he c hc
    rcases hb : isDelim c with _ | _
    · rfl
    · exact absurd (isDelim_iff.mp hb) this
  · obtain ⟨c, hc, hp⟩ := Re.needs_run r h.2 s t w ht he
    exact ⟨c, hc, by simpa using hp⟩

/-- A replacement text without blocks, as units. -/
def toTU : Tp → TU
  | .lit c => .un (.ch c)
  | .ref n => .grp n

theorem tplOf_toTU : ∀ tpl : List Tp, tplOf (tpl.map toTU) = tpl
  | [] => rfl
  | .lit c :: ts => by simp [toTU, tplOf, U.enc, tplOf_toTU ts]
  | .ref n :: ts => by simp [toTU, tplOf, tplOf_toTU ts]

/-- The units of the replacement text are plain characters or symbols. -/
def plainTU (ts : List TU) : Bool := ts.all fun
  | .grp n => n != 0
  | .un (.ch c) => !isDelim c
  | .un (.bk s) => (symVal.map Prod.fst).contains s

/-- The pattern is safe and its replacement only adds white space. -/
def ruleOk (r : Re) (ts : List TU) : Bool :=
  safeRe r && plainTU ts && match r.shape with
    | some is => alignW ts is
    | none => false

section
variable {D : Char → Bool} (hD : ∀ c, D c = true → isDelim c = true) (hD' : D '_' = true)
include hD

theorem not_D {c : Char} (h : isDelim c = false) : D c = false := by
  rcases hb : D c with _ | _
  · rfl
  · rw [hD c hb] at h; cases h

include hD'

theorem expandU_good (dict : Dict Str Str) {caps : List (Nat × Str)} {w : Str} (hc : ∀ p ∈ caps, p.2 <:+: w)
    (hw : ∀ c ∈ w, isDelim c = false) {ts : List TU} (h : plainTU ts = true) :
    ∀ u ∈ expandU caps ts, u.Good D dict := by
  induction ts with
  | nil => simp [expandU]
  | cons t ts ih =>
    simp only [plainTU, List.all_cons, Bool.and_eq_true] at h ih
    have ih := ih h.2
    intro u hu
    cases t with
    | grp n =>
      rw [expandU, List.mem_append, List.mem_map] at hu
      rcases hu with ⟨c, hcc, rfl⟩ | hu
      · obtain ⟨p, hp, hcp⟩ := capText_mem hcc
        exact not_D hD (hw c ((hc p hp).subset hcp))
      · exact ih u hu
    | un v =>
      rw [expandU, List.mem_cons] at hu
      rcases hu with rfl | hu
      · cases u with
        | ch c => exact not_D hD (by simpa using h.1)
        | bk s => exact sym_good hD' dict (List.contains_iff_mem.mp h.1)
      · exact ih u hu

/-- A statically checked rule. -/
theorem rule_step (db : CharDB) (dict : Dict Str Str) {r : Re} {ts : List TU} (h : ruleOk r ts = true) (us : List U)
    (hok : ∀ u ∈ us, u.Good D dict) : ∃ us', r.sub db (tplOf ts) (encode us) = encode us' ∧
      (∀ u ∈ us', u.Good D dict) ∧ ∀ T, LeB T (semAll dict us) (semAll dict us') := by
  unfold ruleOk at h
  rw [Bool.and_eq_true, Bool.and_eq_true] at h
  obtain ⟨⟨h1, h2⟩, h3⟩ := h
  have hsafe := safeRe_safe db h1
  split at h3
  · rename_i is his
    obtain ⟨us', hr, e⟩ := sub_units hD (tpl := tplOf ts) hsafe
      (fun w e => (∀ u ∈ e, u.Good D dict) ∧ ∀ T, LeB T (w.map U.ch) (semAll dict e)) us (fun u hu => (hok u hu).ok) (by
        intro w pre t _ ht he
        refine ⟨expandU t.caps ts, ⟨?_, ?_⟩, ?_⟩
        · exact expandU_good hD hD' dict he.caps_infix (hsafe _ _ _ ht he).1 h2
        · intro T
          exact alignW_le ts is w (Re.shape_run r is his _ t w ht he t.caps fun _ _ => rfl) h3
        · refine expand_tplOf w t.caps ts ?_
          intro h0
          have := List.all_eq_true.mp h2 _ h0
          simp at this)
    exact ⟨us', e, hr.all (fun w e h => h.1) hok, fun T => hr.le fun w e h => h.2 T⟩
  · cases h3

end

end Model
