import Verif.Lemmas.StagesSplit

/-! # The stages of the tokenizer: restoring symbols, reattaching, restoring protected texts -/

namespace Py

/-! ### Literal patterns -/

/-- The pattern of a literal text. -/
def lits : Str → Re
  | [] => .eps
  | [c] => .cls ⟨false, false, [.ch c]⟩
  | c :: d :: cs => .seq (.cls ⟨false, false, [.ch c]⟩) (lits (d :: cs))

theorem lit_run (db : CharDB) (c : Char) (s : St) : (Re.cls ⟨false, false, [.ch c]⟩).run db s =
    if [c].isPrefixOf s.rest then [⟨c :: s.pre, s.rest.drop 1, s.caps⟩] else [] := by
  simp only [Re.run]
  cases h : s.rest with
  | nil => rfl
  | cons d cs =>
    by_cases hc : c = d
    · subst hc; simp [Cls.test, Item.test]
    · simp [Cls.test, Item.test, hc]

theorem lits_run (db : CharDB) : ∀ (l : Str) (s : St), (lits l).run db s =
    if l.isPrefixOf s.rest then [⟨l.reverse ++ s.pre, s.rest.drop l.length, s.caps⟩] else []
  | [], s => by simp [lits, Re.run]
  | [c], s => by simp [lits, lit_run]
  | c :: d :: cs, s => by
    rw [lits, Re.run, lit_run]
    cases h : s.rest with
    | nil => simp [List.isPrefixOf]
    | cons e rest =>
      by_cases hc : c = e
      · subst hc
        simp only [List.isPrefixOf, beq_self_eq_true, Bool.and_self, if_true, List.flatMap_cons, List.flatMap_nil,
          List.append_nil, List.drop_succ_cons, List.drop_zero, Bool.true_and]
        rw [lits_run db (d :: cs)]
        simp only [List.isPrefixOf]
        split
        · simp [h]
        · rfl
      · have : (c == e) = false := by simpa using hc
        simp [List.isPrefixOf, this]

theorem lits_subFrom (db : CharDB) {l : Str} (hl : l ≠ []) (new : Str) : ∀ (n : Nat) (pre rest : Str),
    (lits l).subFrom db (new.map Tp.lit) n pre rest = Model.replaceFrom l new n rest
  | 0, pre, rest => by simp [Re.subFrom, Model.replaceFrom]
  | n + 1, pre, rest => by
    rw [Re.subFrom.eq_def, Model.replaceFrom.eq_def]
    simp only [Re.matchAt, lits_run]
    by_cases h : l.isPrefixOf rest = true
    · have hp := List.isPrefixOf_iff_prefix.mp h
      have hlen := hp.length_le
      have hpos := List.length_pos_of_ne_nil hl
      simp only [h, if_true, List.head?_cons, List.length_drop]
      rw [if_pos (by omega)]
      simp only
      rw [Model.expand_lits, lits_subFrom db hl new n]
    · simp only [h, Bool.false_eq_true, if_false, List.head?_nil]
      cases rest with
      | nil => rfl
      | cons c cs =>
        simp only
        rw [lits_subFrom db hl new n]

theorem lits_sub (db : CharDB) {l : Str} (hl : l ≠ []) (new text : Str) :
    (lits l).sub db (new.map Tp.lit) text = Model.strReplace l new text := lits_subFrom db hl new _ _ _

/-! ### First and last characters of a match -/

/-- The class contains no white space (sufficient condition). -/
def Cls.solid (k : Cls) : Bool :=
  !k.neg && !k.ic && k.items.all fun
    | .ch c => !isSpace c
    | .range a b => decide (33 ≤ a.toNat ∧ b.toNat ≤ 126)
    | _ => false

def Re.solid : Re → Bool
  | .cls k => k.solid
  | .seq a b => a.solid && b.solid
  | .alt a b => a.solid && b.solid
  | .rep _ _ a => a.solid
  | .group _ a => a.solid
  | _ => true

theorem Re.solid_run {db : CharDB} {r : Re} (h : r.solid = true) :
    ∀ s t w, t ∈ r.run db s → Eats s t w → ∀ c ∈ w, isSpace c = false := by
  refine Re.run_all _ Re.solid ?_ ?_ ?_ ?_ ?_ r h
  · intro k hk c hc
    simp only [Re.solid, Cls.solid, Bool.and_eq_true, Bool.not_eq_true'] at hk
    unfold Cls.test at hc
    rw [hk.1.1, bne_iff_ne, Bool.ne_false_iff, List.any_eq_true] at hc
    obtain ⟨i, hi, ht⟩ := hc
    have := List.all_eq_true.mp hk.2 i hi
    rw [hk.1.2] at ht
    cases i <;> simp only [Bool.false_eq_true, Bool.not_eq_true', decide_eq_true_eq] at this
    · rename_i a
      simp only [Item.test, Bool.false_eq_true, if_false, beq_iff_eq] at ht
      rw [← ht]
      exact this
    · rename_i a b
      simp only [Item.test, Bool.false_eq_true, if_false, Bool.and_eq_true, decide_eq_true_eq] at ht
      simp [isSpace]
      omega
  · intro a b h; simpa [Re.solid] using h
  · intro a b h; simpa [Re.solid] using h
  · intro n g a h; simpa [Re.solid] using h
  · intro n a h; simpa [Re.solid] using h

/-- Patterns that eat nothing. -/
def Re.zero : Re → Bool
  | .eps | .bos | .eos | .wordB | .ahead _ _ | .behind _ _ => true
  | _ => false

theorem Re.zero_run {db : CharDB} {r : Re} (h : r.zero = true) {s t : St} (ht : t ∈ r.run db s) : t = s := by
  cases r <;> first | exact Re.run_zero (by trivial) ht | cases h

/-- A match begins with a character other than white space. -/
def Re.firstSolid : Re → Bool
  | .seq a b => (a.solid && decide (0 < a.minLen)) || (a.zero && b.firstSolid)
  | r => r.solid && decide (0 < r.minLen)

/-- A match ends with a character other than white space. -/
def Re.lastSolid : Re → Bool
  | .seq a b => b.lastSolid || (b.zero && a.lastSolid)
  | r => r.solid && decide (0 < r.minLen)

theorem eats_ne_nil {db : CharDB} {r : Re} {s t : St} {w : Str} (ht : t ∈ r.run db s) (he : Eats s t w)
    (h : 0 < r.minLen) : w ≠ [] := by
  rintro rfl
  have h1 := r.run_minLen s t ht
  have h2 := he.rest
  simp only [List.nil_append] at h2
  rw [h2] at h1
  omega

theorem Re.firstSolid_run {db : CharDB} (r : Re) (h : r.firstSolid = true) : ∀ s t w, t ∈ r.run db s → Eats s t w →
    ∃ c w', w = c :: w' ∧ isSpace c = false := by
  have base : ∀ r : Re, (r.solid && decide (0 < r.minLen)) = true → ∀ s t w, t ∈ r.run db s → Eats s t w →
      ∃ c w', w = c :: w' ∧ isSpace c = false := by
    intro r h s t w ht he
    rw [Bool.and_eq_true, decide_eq_true_eq] at h
    obtain ⟨c, w', rfl⟩ := List.exists_cons_of_ne_nil (eats_ne_nil ht he h.2)
    exact ⟨c, w', rfl, Re.solid_run h.1 s t _ ht he c (by simp)⟩
  induction r with
  | seq a b _ ihb =>
    intro s t w ht he
    obtain ⟨u, w1, w2, hu, ht', h1, h2⟩ := Re.run_seq ht
    rw [Re.firstSolid, Bool.or_eq_true] at h
    rw [he.uniq (h1.trans h2)]
    rcases h with h | h
    · obtain ⟨c, w', rfl, hc⟩ := base a h s u w1 hu h1
      exact ⟨c, w' ++ w2, rfl, hc⟩
    · rw [Bool.and_eq_true] at h
      obtain rfl := Re.zero_run h.1 hu
      rw [h1.uniq (Eats.refl u)]
      exact ihb h.2 u t w2 ht' h2
  | eps | cls | alt | rep | group | bos | eos | wordB | ahead | behind => exact base _ h

theorem Re.lastSolid_run {db : CharDB} (r : Re) (h : r.lastSolid = true) : ∀ s t w, t ∈ r.run db s → Eats s t w →
    ∃ w' c, w = w' ++ [c] ∧ isSpace c = false := by
  have base : ∀ r : Re, (r.solid && decide (0 < r.minLen)) = true → ∀ s t w, t ∈ r.run db s → Eats s t w →
      ∃ w' c, w = w' ++ [c] ∧ isSpace c = false := by
    intro r h s t w ht he
    rw [Bool.and_eq_true, decide_eq_true_eq] at h
    obtain ⟨w', c, rfl⟩ := (List.eq_nil_or_concat w).resolve_left (eats_ne_nil ht he h.2)
    rw [List.concat_eq_append] at he ⊢
    exact ⟨w', c, rfl, Re.solid_run h.1 s t _ ht he c (by simp)⟩
  induction r with
  | seq a b iha ihb =>
    intro s t w ht he
    obtain ⟨u, w1, w2, hu, ht', h1, h2⟩ := Re.run_seq ht
    rw [Re.lastSolid, Bool.or_eq_true] at h
    rw [he.uniq (h1.trans h2)]
    rcases h with h | h
    · obtain ⟨w', c, rfl, hc⟩ := ihb h u t w2 ht' h2
      exact ⟨w1 ++ w', c, by simp, hc⟩
    · rw [Bool.and_eq_true] at h
      obtain rfl := Re.zero_run h.1 ht'
      rw [h2.uniq (Eats.refl t), List.append_nil]
      exact iha h.2 s t w1 hu h1
  | eps | cls | alt | rep | group | bos | eos | wordB | ahead | behind => exact base _ h

end Py

namespace Model
open Py

section
variable {D : Char → Bool} {dict : Dict Str Str} {us0 : List U}

/-! ### Symbols -/

/-- The names of symbols do not occur. -/
def NoNames (us : List U) : Prop := ∀ n ∈ [c!"NSD", c!"NSGE", c!"NSLE"], ¬ n.map U.ch <:+: us

theorem restore_eq : tokRestore = symVal.map fun p => (lits p.1, p.2.map Tp.lit) := by decide +kernel

theorem sym_lookup : ∀ p ∈ symVal, symVal.lookup p.1 = some p.2 := by decide +kernel

/-- The shape of the blocks of symbols. -/
theorem sym_shape {L : Str} (h : Sym L) : ∃ nm, L = '_' :: (nm ++ ['_']) ∧
    (∃ n ∈ [c!"NSD", c!"NSGE", c!"NSLE"], n <:+: nm) ∧ (∀ c ∈ nm, isDelim c = false) ∧
    ∃ c nm', nm = c :: nm' ∧ (c = 'N' ∨ c = 'R') := by
  simp only [Sym, symVal, List.map_cons, List.map_nil, List.mem_cons, List.not_mem_nil, or_false] at h
  rcases h with rfl | rfl | rfl | rfl | rfl
  · exact ⟨c!"NSD", rfl, ⟨c!"NSD", by simp, List.infix_rfl⟩, by decide, _, _, rfl, .inl rfl⟩
  · exact ⟨c!"NSGE", rfl, ⟨c!"NSGE", by simp, List.infix_rfl⟩, by decide, _, _, rfl, .inl rfl⟩
  · exact ⟨c!"NSLE", rfl, ⟨c!"NSLE", by simp, List.infix_rfl⟩, by decide, _, _, rfl, .inl rfl⟩
  · exact ⟨c!"RNSGE", rfl, ⟨c!"NSGE", by simp, ⟨['R'], [], rfl⟩⟩, by decide, _, _, rfl, .inr rfl⟩
  · exact ⟨c!"RNSLE", rfl, ⟨c!"NSLE", by simp, ⟨['R'], [], rfl⟩⟩, by decide, _, _, rfl, .inr rfl⟩

theorem natRepr_no {n : Nat} {c : Char} (hc : c.isDigit = false) : c ∉ natRepr n := fun h => by
  have := natRepr_isDigit n c h
  rw [hc] at this
  cases this

/-- Underscores in a marker: none. -/
theorem mark_no_underscore {s : Str} (h : Mark s) : '_' ∉ s := by
  obtain ⟨n, rfl | rfl⟩ := h
  · have := natRepr_no (n := n) (c := '_') (by decide)
    simp [this]
  · have := natRepr_no (n := n) (c := '_') (by decide)
    simp [this]

/-- Underscores in a key: first, last, or before the number. -/
theorem key_underscore {i : Nat} {x v : Str} (h : protectKey i = x ++ '_' :: v) :
    (x = [] ∧ v = c!"PROTECTED_" ++ natRepr i ++ c!"_") ∨ v = [] ∨ (v = natRepr i ++ c!"_") := by
  have e : protectKey i = '_' :: (c!"PROTECTED" ++ '_' :: (natRepr i ++ ['_'])) := by simp [protectKey]
  rw [e] at h
  cases x with
  | nil =>
    left
    simp only [List.nil_append, List.cons.injEq, true_and] at h
    exact ⟨rfl, by rw [← h]; simp⟩
  | cons d x =>
    right
    simp only [List.cons_append, List.cons.injEq] at h
    obtain ⟨-, h⟩ := h
    rcases List.append_eq_append_iff.mp (show c!"PROTECTED" ++ ('_' :: (natRepr i ++ ['_'])) = x ++ '_' :: v from h) with ⟨a', h1, h2⟩ | ⟨c', h1, h2⟩
    · cases a' with
      | nil =>
        simp only [List.nil_append, List.cons.injEq, true_and] at h2
        exact .inr h2.symm
      | cons b a' =>
        simp only [List.cons_append, List.cons.injEq] at h2
        obtain ⟨-, h2⟩ := h2
        rcases List.append_eq_append_iff.mp h2 with ⟨b', h3, h4⟩ | ⟨d', h3, h4⟩
        · cases b' with
          | nil =>
            simp only [List.nil_append, List.cons.injEq, true_and] at h4
            exact .inl h4.symm
          | cons y b' =>
            simp only [List.cons_append, List.cons.injEq] at h4
            have := congrArg List.length h4.2
            simp at this
        · cases d' with
          | nil =>
            simp only [List.nil_append, List.cons.injEq, true_and] at h4
            exact .inl h4
          | cons y d' =>
            simp only [List.cons_append, List.cons.injEq] at h4
            exact absurd (by rw [h3, ← h4.1]; simp) (natRepr_no (n := i) (c := '_') (by decide))
    · cases c' with
      | nil =>
        simp only [List.nil_append, List.cons.injEq, true_and] at h2
        exact .inr h2
      | cons y c' =>
        simp only [List.cons_append, List.cons.injEq] at h2
        have : '_' ∈ c!"PROTECTED" := by rw [h1, h2.1]; simp
        exact absurd this (by decide)

/-- Underscores in the block of a symbol: first or last. -/
theorem sym_underscore {s x v : Str} (hs : Sym s) (h : s = x ++ '_' :: v) : x = [] ∨ v = [] := by
  obtain ⟨nm, rfl, -, hnm, -⟩ := sym_shape hs
  cases x with
  | nil => exact .inl rfl
  | cons d x =>
    right
    simp only [List.cons_append, List.cons.injEq] at h
    obtain ⟨-, h⟩ := h
    rcases List.append_eq_append_iff.mp h with ⟨b', h3, h4⟩ | ⟨d', h3, h4⟩
    · cases b' with
      | nil =>
        simp only [List.nil_append, List.cons.injEq, true_and] at h4
        exact h4.symm
      | cons y b' =>
        simp only [List.cons_append, List.cons.injEq] at h4
        have := congrArg List.length h4.2
        simp at this
    · cases d' with
      | nil =>
        simp only [List.nil_append, List.cons.injEq, true_and] at h4
        exact h4
      | cons y d' =>
        simp only [List.cons_append, List.cons.injEq] at h4
        have := hnm '_' (by rw [h3, ← h4.1]; simp)
        exact absurd this (by decide)

theorem sym_prefix : ∀ s ∈ symVal.map Prod.fst, ∀ t ∈ symVal.map Prod.fst, s ≠ t → ¬ s <+: t ∧ ¬ t <+: s := by
  decide +kernel

variable (hD : ∀ c, D c = true → isDelim c = true) (hD' : D '_' = true)
include hD hD'

/-- The block of a symbol occurs only as a unit. -/
theorem sym_aligned {L : Str} (hL : Sym L) {us : List U} (hg : ∀ u ∈ us, u.Good D dict) (hn : NoNames us) :
    ∀ a u b x v, us = a ++ u :: b → u ≠ .bk L → u.enc = x ++ v → v ≠ [] → ¬ L <+: v ++ encode b := by
  rintro a u b x v rfl hu hx hv ⟨r, hr⟩
  obtain ⟨nm, e, ⟨n, hn1, hn2⟩, hnm, c, nm', e2, hc⟩ := sym_shape hL
  obtain ⟨v0, v', rfl⟩ := List.exists_cons_of_ne_nil hv
  rw [e] at hr
  simp only [List.cons_append, List.cons.injEq] at hr
  obtain ⟨rfl, hr⟩ := hr
  have hug := hg u (by simp)
  have htail : v' = [] → False := by
    rintro rfl
    simp only [List.nil_append, List.append_assoc] at hr
    obtain ⟨b', h1, -⟩ := take_raw nm b ('_' :: r) (D := D) (fun u hu => (hg u (by simp [hu])).ok) hr.symm
      fun c hc => not_D hD (hnm c hc)
    refine hn n hn1 (List.IsInfix.trans (hn2.map U.ch) ?_)
    exact ⟨a ++ [u], b', by rw [h1]; simp⟩
  have hhead : ∀ d v'', v' = d :: v'' → d ≠ 'N' → d ≠ 'R' → False := by
    rintro d v'' rfl h1 h2
    rw [e2] at hr
    simp only [List.cons_append, List.cons.injEq] at hr
    rcases hc with rfl | rfl
    · exact h1 hr.1.symm
    · exact h2 hr.1.symm
  cases u with
  | ch c =>
    simp only [U.enc] at hx
    cases x with
    | nil =>
      simp only [List.nil_append, List.cons.injEq] at hx
      obtain ⟨rfl, -⟩ := hx
      have : D '_' = false := hug
      rw [hD'] at this
      cases this
    | cons y x =>
      simp only [List.cons_append, List.cons.injEq] at hx
      have := congrArg List.length hx.2
      simp at this
  | bk s =>
    simp only [U.enc] at hx
    rcases hug.2 with hs | ⟨⟨i, rfl⟩, -⟩ | hs
    · rcases sym_underscore hs hx with rfl | rfl
      · simp only [List.nil_append] at hx
        have hne : s ≠ L := fun h => hu (by rw [h])
        have hpre : L <+: s ++ encode b := ⟨r, by rw [hx, e]; simp only [List.cons_append]; rw [hr]⟩
        rcases List.prefix_or_prefix_of_prefix hpre (List.prefix_append s (encode b)) with h | h
        · exact (sym_prefix L hL s hs hne.symm).1 h
        · exact (sym_prefix L hL s hs hne.symm).2 h
      · exact htail rfl
    · rcases key_underscore hx with ⟨-, h⟩ | h | h
      · exact hhead 'P' _ h (by decide) (by decide)
      · exact htail h
      · obtain ⟨d, ds, hd⟩ := List.exists_cons_of_ne_nil (natRepr_ne_nil i)
        rw [hd] at h
        have hdig := natRepr_isDigit i d (by rw [hd]; simp)
        refine hhead d _ h ?_ ?_
        · rintro rfl; exact absurd hdig (by decide)
        · rintro rfl; exact absurd hdig (by decide)
    · exact mark_no_underscore hs (by rw [hx]; simp)

theorem restore_step {p : Str × Str} (hp : p ∈ symVal) {us : List U} (hg : ∀ u ∈ us, u.Good D dict) (hn : NoNames us)
    (db : CharDB) : ∃ us', (lits p.1).sub db (p.2.map Tp.lit) (encode us) = encode us' ∧ (∀ u ∈ us', u.Good D dict) ∧
      semAll dict us' = semAll dict us ∧ ∀ s, U.bk s ∈ us' → U.bk s ∈ us ∧ s ≠ p.1 := by
  have hL : Sym p.1 := List.mem_map_of_mem hp
  have hne : p.1 ≠ [] := by
    obtain ⟨nm, e, -⟩ := sym_shape hL
    rw [e]
    simp
  refine ⟨us.flatMap fun u => if u = .bk p.1 then p.2.map U.ch else [u], ?_, ?_, ?_, ?_⟩
  · rw [lits_sub db hne]
    exact replaceFrom_block hne (encode_ch p.2).symm us _ (sym_aligned hD hD' hL hg hn) (Nat.le_refl _)
  · intro u hu
    rw [List.mem_flatMap] at hu
    obtain ⟨v, hv, hu⟩ := hu
    split at hu
    · obtain ⟨c, hc, rfl⟩ := List.mem_map.mp hu
      have : ∀ p ∈ symVal, ∀ c ∈ p.2, isDelim c = false := by decide
      exact not_D hD (this p hp c hc)
    · rw [List.mem_singleton] at hu
      exact hu ▸ hg v hv
  · clear hg hn
    induction us with
    | nil => rfl
    | cons u us ih =>
      rw [List.flatMap_cons, semAll_append, ih, semAll_cons]
      split
      · rename_i h
        subst h
        rw [semAll_ch]
        simp only [sem, sym_lookup p hp]
      · simp
  · intro s hs
    rw [List.mem_flatMap] at hs
    obtain ⟨v, hv, hs⟩ := hs
    split at hs
    · simp at hs
    · rename_i h
      rw [List.mem_singleton] at hs
      subst hs
      exact ⟨hv, fun h' => h (by rw [h'])⟩

/-- All symbols restored. -/
theorem restore_all (hn0 : NoNames us0) (db : CharDB) : ∀ (l : List (Str × Str)), (∀ p ∈ l, p ∈ symVal) → ∀ us : List U,
    (∀ u ∈ us, u.Good D dict) → LeT trLetters us0 (semAll dict us) →
    ∃ us', subAll db (l.map fun p => (lits p.1, p.2.map Tp.lit)) (encode us) = encode us' ∧
      (∀ u ∈ us', u.Good D dict) ∧ semAll dict us' = semAll dict us ∧ ∀ s, U.bk s ∈ us' → U.bk s ∈ us ∧ s ∉ l.map Prod.fst
  | [], _, us, hg, _ => ⟨us, rfl, hg, rfl, fun s hs => ⟨hs, by simp⟩⟩
  | p :: l, hl, us, hg, hle => by
    have hn : NoNames us := by
      intro n hn1 hn2
      have h1 := infix_semAll (dict := dict) hn2
      rw [semAll_ch] at h1
      refine hn0 n hn1 (LeT.infix hle ?_ h1)
      have : ∀ n ∈ [c!"NSD", c!"NSGE", c!"NSLE"], ∀ c ∈ n, nameLetters.contains c = true := by decide
      exact this n hn1
    obtain ⟨us1, e1, g1, s1, b1⟩ := restore_step hD hD' (hl p (by simp)) hg hn db
    obtain ⟨us2, e2, g2, s2, b2⟩ := restore_all hn0 db l (fun p hp => hl p (by simp [hp])) us1 g1 (by rw [s1]; exact hle)
    refine ⟨us2, ?_, g2, s2.trans s1, ?_⟩
    · rw [List.map_cons, subAll_cons, e1, e2]
    · intro s hs
      obtain ⟨h1, h2⟩ := b2 s hs
      obtain ⟨h3, h4⟩ := b1 s h1
      exact ⟨h3, by simp only [List.map_cons, List.mem_cons, not_or]; exact ⟨h4, h2⟩⟩

/-! ### Reattaching -/

/-- What is checked of a rule that reattaches. -/
def reattachOk (r : SubRule) : Bool :=
  safeRe r.1 && plainTU (r.2.map toTU) && r.1.firstSolid && r.1.lastSolid &&
    (match r.1.shape with
      | some is => alignE (r.2.map toTU) (is.filter fun i => i != .ws)
      | none => false) && !r.2.isEmpty

omit hD hD' in
theorem toTU_noBlock (tpl : List Tp) : ∀ s, TU.un (.bk s) ∉ tpl.map toTU := by
  intro s h
  obtain ⟨t, -, ht⟩ := List.mem_map.mp h
  cases t <;> simp [toTU] at ht

omit hD hD' in
theorem expandU_chars {caps : List (Nat × Str)} : ∀ {ts : List TU}, (∀ s, TU.un (.bk s) ∉ ts) →
    ∀ u ∈ expandU caps ts, ∃ c, u = .ch c
  | [], _ => by simp [expandU]
  | .grp n :: ts, h => by
    intro u hu
    rw [expandU, List.mem_append, List.mem_map] at hu
    rcases hu with ⟨c, -, rfl⟩ | hu
    · exact ⟨c, rfl⟩
    · exact expandU_chars (fun s hs => h s (by simp [hs])) u hu
  | .un v :: ts, h => by
    intro u hu
    rw [expandU, List.mem_cons] at hu
    rcases hu with rfl | hu
    · cases u with
      | ch c => exact ⟨c, rfl⟩
      | bk s => exact absurd (by simp) (h s)
    · exact expandU_chars (fun s hs => h s (by simp [hs])) u hu

omit hD hD' in
theorem semAll_chars {l : List U} (h : ∀ u ∈ l, ∃ c, u = .ch c) : semAll dict l = l := by
  induction l with
  | nil => rfl
  | cons u l ih =>
    obtain ⟨c, rfl⟩ := h u (by simp)
    rw [semAll_cons, ih fun u hu => h u (by simp [hu])]
    rfl

omit hD hD' in
theorem solids_append (a b : List U) : solids (a ++ b) = solids a ++ solids b := by simp [solids]

omit hD hD' in
theorem solids_ws {v : Str} (h : ∀ c ∈ v, isSpace c = true) : solids (v.map U.ch) = [] := by
  rw [solids, List.filter_eq_nil_iff]
  intro u hu
  obtain ⟨c, hc, rfl⟩ := List.mem_map.mp hu
  simp [U.solid, h c hc]

omit hD hD' in
/-- A replacement that repeats the parts of the match other than white space. -/
theorem align_solids {caps : List (Nat × Str)} {is : List It} {w : Str} (hp : Pieces caps is w) : ∀ {ts : List TU},
    alignE ts (is.filter fun i => i != .ws) = true →
    solids (semAll dict (expandU caps ts)) = solids (w.map U.ch) := by
  induction hp with
  | nil =>
    intro ts ha
    cases ts with
    | nil => rfl
    | cons t ts => cases ha
  | ws hv _ ih =>
    intro ts ha
    rw [List.map_append, solids_append, solids_ws hv, List.nil_append]
    exact ih ha
  | @lit c is w hp ih =>
    intro ts ha
    cases ts with
    | nil => cases ha
    | cons t ts =>
      simp only [List.filter_cons, bne_iff_ne, ne_eq, reduceCtorEq, not_false_eq_true, if_true, alignE,
        Bool.and_eq_true] at ha
      obtain ⟨v, w', e, hp', he⟩ := TU.same_eq (dict := dict) ha.1 (Pieces.lit (c := c) (Pieces.nil (caps := caps)))
      cases hp'
      rw [he, solids_append, ih ha.2]
      rw [List.append_nil] at e
      subst e
      rw [show c :: w = [c] ++ w from rfl, List.map_append, solids_append]
  | @grp n is w hp ih =>
    intro ts ha
    cases ts with
    | nil => cases ha
    | cons t ts =>
      simp only [List.filter_cons, bne_iff_ne, ne_eq, reduceCtorEq, not_false_eq_true, if_true, alignE,
        Bool.and_eq_true] at ha
      obtain ⟨v, w', e, hp', he⟩ := TU.same_eq (dict := dict) ha.1 (Pieces.grp (n := n) (Pieces.nil (caps := caps)))
      cases hp'
      rw [he, solids_append, ih ha.2]
      rw [List.append_nil, List.append_nil] at e
      subst e
      rw [List.map_append, solids_append]

theorem reattach_step (db : CharDB) {r : SubRule} (h : reattachOk r = true) (us : List U)
    (hg : ∀ u ∈ us, u.Good D dict) : ∃ us', r.1.sub db r.2 (encode us) = encode us' ∧ (∀ u ∈ us', u.Good D dict) ∧
      (∀ s, U.bk s ∈ us' → U.bk s ∈ us) ∧ LeT trBlocks (semAll dict us) (semAll dict us') ∧
      solids (semAll dict us') = solids (semAll dict us) := by
  simp only [reattachOk, Bool.and_eq_true, Bool.not_eq_true'] at h
  obtain ⟨⟨⟨⟨⟨h1, h2⟩, h3⟩, h4⟩, h5⟩, h6⟩ := h
  have hsafe := safeRe_safe db h1
  split at h5
  · rename_i is his
    obtain ⟨us', hr, e⟩ := sub_units hD (tpl := r.2) hsafe
      (fun w e => (∀ u ∈ e, u.Good D dict) ∧ (∀ u ∈ e, ∃ c, u = .ch c) ∧ LeB trBlocks (w.map U.ch) (semAll dict e) ∧
        solids (semAll dict e) = solids (w.map U.ch)) us (fun u hu => (hg u hu).ok) (by
        intro w pre t _ ht he
        have hp := Re.shape_run r.1 is his _ t w ht he t.caps fun _ _ => rfl
        have hch := expandU_chars (caps := t.caps) (toTU_noBlock (tpl := r.2))
        have hsol := align_solids (dict := dict) hp h5
        obtain ⟨c, w', hw, hc⟩ := Re.firstSolid_run r.1 h3 _ _ _ ht he
        obtain ⟨w'', d, hw', hd⟩ := Re.lastSolid_run r.1 h4 _ _ _ ht he
        refine ⟨expandU t.caps (r.2.map toTU), ⟨?_, hch, ?_, hsol⟩, ?_⟩
        · exact expandU_good hD hD' dict he.caps_infix (hsafe _ _ _ ht he).1 h2
        · rw [semAll_chars hch]
          refine blocks_le ?_ hch ?_ ?_ (by rw [hw]; simp)
          · intro h0
            rw [h0, hw] at hsol
            simp [solids, U.solid, hc] at hsol
          · intro c' hc' hs
            rw [hw] at hc'
            simp only [List.head?_cons, Option.some.injEq] at hc'
            subst hc'
            rw [hc] at hs
            cases hs
          · intro c' hc' hs
            rw [hw'] at hc'
            simp only [List.getLast?_append, List.getLast?_singleton, Option.some_or, Option.some.injEq] at hc'
            subst hc'
            rw [hd] at hs
            cases hs
        · have := expand_tplOf w t.caps (r.2.map toTU) (by
            intro h0
            have := List.all_eq_true.mp h2 _ h0
            simp at this)
          rw [tplOf_toTU] at this
          exact this)
    refine ⟨us', e, hr.all (fun w e h => h.1) hg, ?_, (hr.le fun w e h => h.2.2.1).toT, ?_⟩
    · clear e hg
      induction hr with
      | nil => exact fun s hs => hs
      | keep u _ ih =>
        intro s hs
        rcases List.mem_cons.mp hs with hs | hs
        · simp [hs]
        · exact List.mem_cons_of_mem _ (ih s hs)
      | repl hp _ ih =>
        intro s hs
        rcases List.mem_append.mp hs with hs | hs
        · obtain ⟨c, hc⟩ := hp.2.1 _ hs
          cases hc
        · exact List.mem_append_right _ (ih s hs)
    · clear e hg
      induction hr with
      | nil => rfl
      | keep u _ ih => rw [semAll_cons, semAll_cons, solids_append, solids_append, ih]
      | repl hp _ ih => rw [semAll_append, semAll_append, solids_append, solids_append, ih, hp.2.2.2, semAll_ch]
  · cases h5

theorem reattach_all (db : CharDB) : ∀ (rules : List SubRule), (∀ r ∈ rules, reattachOk r = true) → ∀ us : List U,
    (∀ u ∈ us, u.Good D dict) → ∃ us', subAll db rules (encode us) = encode us' ∧ (∀ u ∈ us', u.Good D dict) ∧
      (∀ s, U.bk s ∈ us' → U.bk s ∈ us) ∧ LeT trBlocks (semAll dict us) (semAll dict us') ∧
      solids (semAll dict us') = solids (semAll dict us)
  | [], _, us, hg => ⟨us, rfl, hg, fun _ h => h, LeT.refl _, rfl⟩
  | r :: rules, h, us, hg => by
    obtain ⟨us1, e1, g1, b1, l1, s1⟩ := reattach_step hD hD' db (h r (by simp)) us hg
    obtain ⟨us2, e2, g2, b2, l2, s2⟩ := reattach_all db rules (fun r hr => h r (by simp [hr])) us1 g1
    exact ⟨us2, by rw [subAll_cons, e1, e2], g2, fun s hs => b1 s (b2 s hs), l1.trans l2, s2.trans s1⟩

/-! ### Protected texts -/

omit hD in
/-- A key occurs only as a unit. -/
theorem key_aligned {k : Nat} {us : List U} (hg : ∀ u ∈ us, u.Good D dict) (hs : ∀ s, U.bk s ∈ us → ¬ Sym s)
    (hD : ∀ c, D c = true → isDelim c = true) :
    ∀ a u b x v, us = a ++ u :: b → u ≠ .bk (protectKey k) → u.enc = x ++ v → v ≠ [] → ¬ protectKey k <+: v ++ encode b := by
  rintro a u b x v rfl hu hx hv ⟨r, hr⟩
  have e : protectKey k = '_' :: (c!"PROTECTED" ++ '_' :: (natRepr k ++ ['_'])) := by simp [protectKey]
  rw [e] at hr
  obtain ⟨v0, v', rfl⟩ := List.exists_cons_of_ne_nil hv
  replace hr := List.cons.inj (show '_' :: ((c!"PROTECTED" ++ '_' :: (natRepr k ++ ['_'])) ++ r) = v0 :: (v' ++ encode b) from hr)
  obtain ⟨rfl, hr⟩ := hr
  obtain ⟨kd, kds, hkd⟩ := List.exists_cons_of_ne_nil (natRepr_ne_nil k)
  have hkdig := natRepr_isDigit k kd (by rw [hkd]; simp)
  have hug := hg u (by simp)
  cases u with
  | ch c =>
    simp only [U.enc] at hx
    cases x with
    | nil =>
      simp only [List.nil_append, List.cons.injEq] at hx
      obtain ⟨rfl, -⟩ := hx
      have : D '_' = false := hug
      rw [hD'] at this
      cases this
    | cons y x =>
      simp only [List.cons_append, List.cons.injEq] at hx
      have := congrArg List.length hx.2
      simp at this
  | bk s =>
    simp only [U.enc] at hx
    rcases hug.2 with h | ⟨⟨i, rfl⟩, -⟩ | h
    · exact hs s (by simp) h
    · rcases key_underscore hx with ⟨-, h⟩ | h | h
      · -- the key of another text
        subst h
        have h2 : natRepr k ++ '_' :: r = natRepr i ++ '_' :: encode b := by
          simpa using hr
        have h3 : natRepr k = natRepr i := by
          have t1 := congrArg (List.takeWhile Char.isDigit) h2
          have t2 : ∀ (n : Nat) (z : Str), (natRepr n ++ '_' :: z).takeWhile Char.isDigit = natRepr n := by
            intro n z
            rw [List.takeWhile_append_of_pos (natRepr_isDigit n)]
            simp [Char.isDigit]
          rwa [t2, t2] at t1
        have h4 : k = i := by
          rw [← ofDigitChars_natRepr k, ← ofDigitChars_natRepr i, h3]
        exact hu (by rw [h4])
      · -- the end of a key, followed by a name in capitals
        subst h
        obtain ⟨b', h1, h2⟩ := take_raw c!"PROTECTED" b (('_' :: (natRepr k ++ ['_'])) ++ r) (D := D)
          (fun u hu => (hg u (by simp [hu])).ok) hr.symm (fun c hc => not_D hD (by
            have : ∀ c ∈ c!"PROTECTED", isDelim c = false := by decide
            exact this c hc))
        cases b' with
        | nil => simp at h2
        | cons u' b'' =>
          have hu' := hg u' (by rw [h1]; simp)
          cases u' with
          | ch c =>
            simp only [encode_cons, U.enc, List.cons_append, List.nil_append, List.cons.injEq] at h2
            have : D c = false := hu'
            rw [← h2.1, hD'] at this
            cases this
          | bk s' =>
            rw [encode_cons, U.enc] at h2
            rcases hu'.2 with h | ⟨⟨j, rfl⟩, -⟩ | ⟨n, h⟩
            · exact hs s' (by rw [h1]; simp) h
            · rw [hkd] at h2
              simp only [protectKey, List.cons_append, List.nil_append, List.cons.injEq] at h2
              rw [h2.2.1] at hkdig
              exact absurd hkdig (by decide)
            · rcases h with rfl | rfl
              · simp only [List.cons_append, List.cons.injEq] at h2
                exact absurd h2.1 (by decide)
              · simp only [List.cons_append, List.cons.injEq] at h2
                exact absurd h2.1 (by decide)
      · subst h
        obtain ⟨d, ds, hd⟩ := List.exists_cons_of_ne_nil (natRepr_ne_nil i)
        have hdig := natRepr_isDigit i d (by rw [hd]; simp)
        rw [hd] at hr
        obtain ⟨hr, -⟩ := List.cons.inj (show 'P' :: _ = d :: _ from hr)
        rw [← hr] at hdig
        exact absurd hdig (by decide)
    · exact mark_no_underscore h (by rw [hx]; simp)

/-- Units after the protected texts of a dictionary have been put back. -/
def putBack (l : Dict Str Str) : U → List U
  | .ch c => [.ch c]
  | .bk s =>
    match Dict.get? l s with
    | some v => v.map U.ch
    | none => [.bk s]

theorem unprotect_units : ∀ (l : Dict Str Str), (∀ p ∈ l, (∃ k, p.1 = protectKey k) ∧ ∀ c ∈ p.2, D c = false) →
    ∀ us : List U, (∀ u ∈ us, u.Good D dict) → (∀ s, U.bk s ∈ us → ¬ Sym s) →
    unprotect l (encode us) = encode (us.flatMap (putBack l))
  | [], _, us, _, _ => by
    have : us.flatMap (putBack []) = us := by
      clear * -
      induction us with
      | nil => rfl
      | cons u us ih => cases u <;> simp only [List.flatMap_cons, ih] <;> rfl
    rw [this]
    rfl
  | p :: l, hl, us, hg, hs => by
    obtain ⟨⟨k, hk⟩, hv⟩ := hl p (by simp)
    have hne : p.1 ≠ [] := by rw [hk]; simp [protectKey]
    have e1 : strReplace p.1 p.2 (encode us) = encode (us.flatMap fun u => if u = .bk p.1 then p.2.map U.ch else [u]) :=
      replaceFrom_block hne (encode_ch p.2).symm us _ (by rw [hk]; exact key_aligned hD' hg hs hD) (Nat.le_refl _)
    have e2 : unprotect (p :: l) (encode us) = unprotect l (strReplace p.1 p.2 (encode us)) := rfl
    have hmem : ∀ u ∈ (us.flatMap fun u => if u = .bk p.1 then p.2.map U.ch else [u]),
        u ∈ us ∨ ∃ c, u = .ch c ∧ D c = false := by
      intro u hu
      rw [List.mem_flatMap] at hu
      obtain ⟨v, hv', hu⟩ := hu
      split at hu
      · obtain ⟨c, hc, rfl⟩ := List.mem_map.mp hu
        exact .inr ⟨c, rfl, hv c hc⟩
      · rw [List.mem_singleton] at hu
        exact .inl (hu ▸ hv')
    rw [e2, e1, unprotect_units l (fun p hp => hl p (by simp [hp])) _ ?_ ?_]
    · congr 1
      rw [List.flatMap_assoc]
      congr 1
      funext u
      cases u with
      | ch c => simp [putBack]
      | bk s =>
        obtain ⟨p1, p2⟩ := p
        simp only [U.bk.injEq]
        by_cases h : s = p1
        · subst h
          rw [if_pos rfl]
          simp only [putBack, Dict.get?, if_true]
          clear e1 e2 hmem hv hl hk hne
          induction p2 with
          | nil => rfl
          | cons c v ih => simp [putBack, ih]
        · rw [if_neg h]
          simp only [List.flatMap_cons, List.flatMap_nil, List.append_nil, putBack, Dict.get?]
          rw [if_neg (fun h' => h h'.symm)]
    · intro u hu
      rcases hmem u hu with h | ⟨c, rfl, hc⟩
      · exact hg u h
      · exact hc
    · intro s h
      rcases hmem _ h with h | ⟨c, hc, -⟩
      · exact hs s h
      · cases hc

omit hD hD' in
theorem key_not_sym (i : Nat) : symVal.lookup (protectKey i) = none := by
  have h : ∀ s, Sym s → s ≠ protectKey i := by
    rintro s hs rfl
    obtain ⟨nm, e, -, -, c, nm', rfl, hc⟩ := sym_shape hs
    simp only [protectKey, List.cons_append, List.nil_append, List.cons.injEq, true_and] at e
    rcases hc with rfl | rfl
    · exact absurd e.1 (by decide)
    · exact absurd e.1 (by decide)
  rw [List.lookup_eq_none_iff]
  intro p hp
  have := h p.1 (List.mem_map_of_mem hp)
  simpa [bne_iff_ne] using this.symm

omit hD hD' in
theorem mark_not_sym {s : Str} (h : Mark s) : symVal.lookup s = none := by
  rw [List.lookup_eq_none_iff]
  intro p hp
  have hs : Sym p.1 := List.mem_map_of_mem hp
  obtain ⟨nm, e, -⟩ := sym_shape hs
  have : s ≠ p.1 := by
    rintro rfl
    exact mark_no_underscore h (by rw [e]; simp)
  simpa [bne_iff_ne] using this

theorem putBack_sem {us : List U} (hg : ∀ u ∈ us, u.Good D dict) (hs : ∀ s, U.bk s ∈ us → ¬ Sym s) :
    us.flatMap (putBack dict) = semAll dict us := by
  induction us with
  | nil => rfl
  | cons u us ih =>
    rw [List.flatMap_cons, semAll_cons, ih (fun u hu => hg u (by simp [hu])) fun s h => hs s (by simp [h])]
    congr 1
    have hu := hg u (by simp)
    cases u with
    | ch c => rfl
    | bk s =>
      have : symVal.lookup s = none := by
        rcases hu.2 with h | ⟨⟨i, rfl⟩, -⟩ | h
        · exact absurd h (hs s (by simp))
        · exact key_not_sym i
        · exact mark_not_sym h
      simp only [putBack, sem, this]
      rfl

end

end Model
