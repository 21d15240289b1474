import Verif.Lemmas.StagesRestore

/-! # The stages of the tokenizer: protecting texts, and the whole -/

namespace Model
open Py

/-- Part of the text without delimiters, with something that does not occur in block names, is a run of plain
characters. -/
theorem raw_infix {D : Char → Bool} {w rest : Str} (hw : ∀ c ∈ w, D c = false) (hn : ∃ c ∈ w, isName c = false) :
    ∀ (us : List U) (x : Str), (∀ u ∈ us, u.Ok D) → encode us = x ++ (w ++ rest) → w.map U.ch <:+: us
  | [], x, _, e => by
    obtain ⟨c, hc, -⟩ := hn
    rw [encode_nil] at e
    have := congrArg List.length e
    simp only [List.length_nil, List.length_append] at this
    have := List.length_pos_of_mem hc
    omega
  | u :: us, x, hok, e => by
    rw [encode_cons] at e
    rcases List.append_eq_append_iff.mp e with ⟨a', h1, h2⟩ | ⟨c', h1, h2⟩
    · exact (raw_infix hw hn us a' (fun u hu => hok u (by simp [hu])) h2).trans (List.suffix_cons u us).isInfix
    · cases c' with
      | nil =>
        simp only [List.nil_append] at h2
        obtain ⟨us', h3, -⟩ := take_raw w us rest (fun u hu => hok u (by simp [hu])) h2.symm hw
        exact ⟨[u], us', by simp [h3]⟩
      | cons d v =>
        cases x with
        | nil =>
          simp only [List.nil_append] at h1
          obtain ⟨us', h3, -⟩ := take_raw w (u :: us) rest hok (by rw [encode_cons, h1, h2]) hw
          exact ⟨[], us', by simp [h3]⟩
        | cons y x =>
          cases u with
          | ch c =>
            have := congrArg List.length h1
            simp [U.enc] at this
          | bk s =>
            obtain ⟨c, hc, hcn⟩ := hn
            have := inside_block (hok (.bk s) (by simp)) h1 (by simp) (by simp) h2.symm hw c hc
            rw [hcn] at this
            cases this

theorem protectKey_inj {i k : Nat} (h : protectKey i = protectKey k) : i = k := by
  have h2 : natRepr k ++ '_' :: [] = natRepr i ++ '_' :: [] := by
    simpa [protectKey] using h.symm
  have h3 : natRepr k = natRepr i := by simpa using h2
  rw [← ofDigitChars_natRepr k, ← ofDigitChars_natRepr i, h3]

theorem key_ok {D : Char → Bool} (hD' : D '_' = true) (i : Nat) : BlkOk D (protectKey i) := by
  refine ⟨'_', c!"PROTECTED_" ++ natRepr i, '_', by simp [protectKey], hD', hD', ?_⟩
  intro c hc
  rcases List.mem_append.mp hc with hc | hc
  · have : ∀ c ∈ c!"PROTECTED_", c = '_' ∨ isName c = true := by decide
    rcases this c hc with rfl | h
    · exact .inl hD'
    · exact .inr h
  · exact .inr (by simp [isName, natRepr_isDigit i c hc])

theorem Dict.mem_of_get? {κ ν : Type} [DecidableEq κ] {d : Dict κ ν} {k : κ} {v : ν} (h : Dict.get? d k = some v) : (k, v) ∈ d := by
  induction d with
  | nil => cases h
  | cons p d ih =>
    obtain ⟨a, b⟩ := p
    simp only [Dict.get?] at h
    split at h
    · rename_i hk
      cases h
      simp [hk]
    · exact List.mem_cons_of_mem _ (ih h)

section
variable {D : Char → Bool} {us0 : List U}

/-- The state of `__protect_text`: the text stands for `us0`. -/
structure PInv (D : Char → Bool) (us0 : List U) (s : PState) : Prop where
  exact : Exact D s.dict us0 s.text
  dict : ∀ p ∈ s.dict, (∃ k, p.1 = protectKey k ∧ k < s.idx) ∧ ∀ c ∈ p.2, D c = false

variable (hD : ∀ c, D c = true → isDelim c = true) (hD' : D '_' = true)
include hD hD'

theorem PInv.step {db : CharDB} {r : Re} (hr : r ∈ tokProtect) {s s' : PState} (h : PInv D us0 s)
    (hc : ∀ m, r.search db s.text = some m → ∀ c ∈ m, D c = false) (hs : protectStep db r s = some s') : PInv D us0 s' := by
  unfold protectStep at hs
  rcases hm : r.search db s.text with _ | m
  · rw [hm] at hs; cases hs
  · rw [hm] at hs
    simp only [Option.some.injEq] at hs
    subst hs
    have hmD := hc m hm
    obtain ⟨hne, st, t, hrun, he, -, -⟩ := Re.search_some hm
    obtain ⟨c, hcm, hp⟩ := r.needs_run (tokProtect_needs r hr) _ _ _ hrun he
    have hcn : isName c = false := by
      have hl : c ∈ ['\'', '.', '(', ')'] := by
        simp only [isProtChar, Bool.or_eq_true, beq_iff_eq] at hp
        simp only [List.mem_cons, List.not_mem_nil, or_false]
        rcases hp with ((h | h) | h) | h <;> simp [h]
      have : ∀ c ∈ ['\'', '.', '(', ')'], isName c = false := by decide
      exact this c hl
    obtain ⟨us, e, hg, hsem⟩ := h.exact
    have hfresh : ∀ p ∈ s.dict, p.1 ≠ protectKey s.idx := by
      intro p hp hk
      obtain ⟨⟨k, hk', hlt⟩, -⟩ := h.dict p hp
      rw [hk'] at hk
      have := protectKey_inj hk
      omega
    have hget : ∀ k v, Dict.get? s.dict k = some v → Dict.get? (Dict.set s.dict (protectKey s.idx) m) k = some v := by
      intro k v hv
      rw [Dict.get?_set_ne _ (fun h' => hfresh _ (Dict.mem_of_get? hv) h'.symm), hv]
    have hgood : ∀ u : U, u.Good D s.dict → u.Good D (Dict.set s.dict (protectKey s.idx) m) := by
      intro u hu
      cases u with
      | ch c => exact hu
      | bk b =>
        refine ⟨hu.1, ?_⟩
        rcases hu.2 with h | ⟨h1, v, hv⟩ | h
        · exact .inl h
        · exact .inr (.inl ⟨h1, v, hget _ _ hv⟩)
        · exact .inr (.inr h)
    have hnew : (U.bk (protectKey s.idx)).Good D (Dict.set s.dict (protectKey s.idx) m) :=
      ⟨key_ok hD' _, .inr (.inl ⟨⟨_, rfl⟩, m, Dict.get?_set_self _ _ _⟩)⟩
    have hsemu : ∀ u : U, u.Good D s.dict → sem (Dict.set s.dict (protectKey s.idx) m) u = sem s.dict u := by
      intro u hu
      cases u with
      | ch c => rfl
      | bk b =>
        have : b ≠ protectKey s.idx ∨ Sym b := by
          rcases hu.2 with h | ⟨-, v, hv⟩ | h
          · exact .inr h
          · exact .inl fun h' => hfresh _ (Dict.mem_of_get? hv) h'
          · refine .inl ?_
            rintro rfl
            exact mark_no_underscore h (by simp [protectKey])
        rcases this with h | h
        · simp only [sem, Dict.get?_set_ne _ (Ne.symm h)]
        · obtain ⟨p, hp, rfl⟩ := List.mem_map.mp h
          simp only [sem, sym_lookup p hp]
    obtain ⟨us', hrew, e'⟩ := replaceFrom_units (D := D) (m := m) (new := protectKey s.idx) (e := [.bk (protectKey s.idx)])
      hne hmD ⟨c, hcm, hcn⟩ (by simp [U.enc]) us.length us (encode us).length (Nat.le_refl _)
      (fun u hu => (hg u hu).ok) (Nat.le_refl _)
    refine ⟨⟨us', ?_, ?_, ?_⟩, ?_⟩
    · simp only [e, strReplace]
      exact e'
    · refine hrew.all ?_ fun u hu => hgood u (hg u hu)
      rintro w e ⟨-, rfl⟩ u hu
      rw [List.mem_singleton] at hu
      exact hu ▸ hnew
    · rw [← hsem]
      clear e e' hsem
      induction hrew with
      | nil => rfl
      | keep u _ ih =>
        rw [semAll_cons, semAll_cons, ih fun u hu => hg u (by simp [hu]), hsemu u (hg u (by simp))]
      | repl hp _ ih =>
        obtain ⟨rfl, rfl⟩ := hp
        rw [semAll_append, semAll_append, ih fun u hu => hg u (by simp [hu]), semAll_ch, semAll_cons]
        simp only [sem, key_not_sym, Dict.get?_set_self]
        simp [semAll]
    · intro p hp
      simp only at hp
      rw [Dict.set_of_not_mem, List.mem_append, List.mem_singleton] at hp
      · rcases hp with hp | rfl
        · obtain ⟨⟨k, h1, h2⟩, h3⟩ := h.dict p hp
          exact ⟨⟨k, h1, by simp only; omega⟩, h3⟩
        · exact ⟨⟨s.idx, rfl, Nat.lt_succ_self _⟩, hmD⟩
      · intro hk
        obtain ⟨q, hq, hk⟩ := List.mem_map.mp hk
        exact hfresh q hq hk

/-- Texts are only protected by a pattern when they contain no delimiter. -/
def CleanRe (D : Char → Bool) (db : CharDB) (us0 : List U) (r : Re) : Prop :=
  ∀ dict x, Exact D dict us0 x → ∀ m, r.search db x = some m → ∀ c ∈ m, D c = false

def CleanProt (D : Char → Bool) (db : CharDB) (us0 : List U) : Prop := ∀ r ∈ tokProtect, CleanRe D db us0 r

theorem PInv.loop {db : CharDB} {r : Re} (hc : CleanRe D db us0 r) (hr : r ∈ tokProtect) : ∀ (fuel : Nat) {s s' : PState},
    PInv D us0 s → protectLoop db r fuel s = some s' → PInv D us0 s'
  | 0, s, s', _, h => by cases h
  | fuel + 1, s, s', hi, h => by
    rw [protectLoop] at h
    rcases hst : protectStep db r s with _ | s1
    · rw [hst] at h
      cases h
      exact hi
    · rw [hst] at h
      exact PInv.loop hc hr fuel (hi.step hD hD' hr (hc _ _ hi.exact) hst) h

theorem PInv.fold {db : CharDB} (hc : CleanProt D db us0) (fuel : Nat) : ∀ (rs : List Re), (∀ r ∈ rs, r ∈ tokProtect) →
    ∀ {s s' : PState}, PInv D us0 s → rs.foldlM (fun s pat => protectLoop db pat fuel s) s = some s' → PInv D us0 s'
  | [], _, s, s', hi, h => by
    cases h
    exact hi
  | r :: rs, hrs, s, s', hi, h => by
    rw [List.foldlM_cons] at h
    rcases h1 : protectLoop db r fuel s with _ | s1
    · rw [h1] at h; cases h
    · rw [h1] at h
      exact PInv.fold hc fuel rs (fun r hr => hrs r (by simp [hr])) (hi.loop hD hD' (hc r (hrs r (by simp))) (hrs r (by simp)) fuel h1) h

/-- Characters and markers stand for themselves. -/
def PlainU (D : Char → Bool) (us : List U) : Prop :=
  ∀ u ∈ us, (∃ c, u = .ch c ∧ D c = false) ∨ ∃ s, u = .bk s ∧ BlkOk D s ∧ Mark s

omit hD hD' in
theorem PlainU.good {us : List U} (h : PlainU D us) (dict : Dict Str Str) : ∀ u ∈ us, u.Good D dict := by
  intro u hu
  rcases h u hu with ⟨c, rfl, hc⟩ | ⟨s, rfl, hs, hm⟩
  · exact hc
  · exact ⟨hs, .inr (.inr hm)⟩

omit hD hD' in
theorem PlainU.sem {us : List U} (h : PlainU D us) : semAll [] us = us := by
  induction us with
  | nil => rfl
  | cons u us ih =>
    rw [semAll_cons, ih fun u hu => h u (by simp [hu])]
    rcases h u (by simp) with ⟨c, rfl, -⟩ | ⟨s, rfl, -, hm⟩
    · rfl
    · simp only [Model.sem, mark_not_sym hm, Dict.get?_nil, List.singleton_append]

theorem protectText_inv {db : CharDB} (hp : PlainU D us0) (hc : CleanProt D db us0) {fuel : Nat} {p : PState}
    (h : protectText db fuel (encode us0) = some p) : PInv D us0 p :=
  PInv.fold hD hD' hc fuel tokProtect (fun _ h => h) (s := ⟨[], encode us0, 1⟩)
    ⟨⟨us0, rfl, hp.good [], hp.sem⟩, by simp⟩ h

/-! ### Texts without addresses -/

/-- No slash, no "www." -/
def NoUrl (us : List U) : Prop :=
  .ch '/' ∉ us ∧ ∀ w : Str, w.map Char.toLower = c!"www." → ¬ w.map U.ch <:+: us

end

theorem fold_w {c : Char} (h : foldCase c = 'w') : c.toLower = 'w' := by
  have h1 : c.toLower = lowerAscii c := (lowerAscii_eq c).symm
  have h3 : lowerLetter c = c.toLower := by
    rw [h1]
    unfold lowerLetter lowerAscii
    simp only [Bool.and_eq_true, decide_eq_true_eq, Char_le_iff]
    rfl
  unfold foldCase at h
  rw [h3] at h
  split at h
  · exact absurd h (by decide)
  split at h
  · exact absurd h (by decide)
  split at h
  · exact absurd h (by decide)
  · exact h

/-- The two beginnings of an address. -/
def httpRe : Re := .seq (.cls ⟨false, true, [.ch 'h']⟩) (.seq (.cls ⟨false, true, [.ch 't']⟩)
  (.seq (.cls ⟨false, true, [.ch 't']⟩) (.seq (.cls ⟨false, true, [.ch 'p']⟩)
    (.seq (.alt (.cls ⟨false, true, [.ch 's']⟩) .eps) (.seq (.cls ⟨false, true, [.ch ':']⟩)
      (.seq (.cls ⟨false, true, [.ch '/']⟩) (.cls ⟨false, true, [.ch '/']⟩)))))))

def wwwRe : Re := .seq (.cls ⟨false, true, [.ch 'w']⟩) (.seq (.cls ⟨false, true, [.ch 'w']⟩)
  (.seq (.cls ⟨false, true, [.ch 'w']⟩) (.cls ⟨false, true, [.ch '.']⟩)))

theorem urlRe_eq : ∃ rest, tokProtect[2]? = some (.seq (.group 1 (.alt httpRe wwwRe)) rest) := ⟨_, rfl⟩

theorem www_run {db : CharDB} {s t : St} (h : t ∈ wwwRe.run db s) :
    ∃ a b c, foldCase a = 'w' ∧ foldCase b = 'w' ∧ foldCase c = 'w' ∧ Eats s t [a, b, c, '.'] := by
  unfold wwwRe at h
  obtain ⟨s1, w1, v1, h1, h, a1, b1⟩ := Re.run_seq h
  obtain ⟨s2, w2, v2, h2, h, a2, b2⟩ := Re.run_seq h
  obtain ⟨s3, w3, v3, h3, h4, a3, b3⟩ := Re.run_seq h
  have hw : foldCase 'w' = 'w' := by decide
  have key : ∀ {a : Char} {s t : St} {w : Str}, t ∈ (Re.cls ⟨false, true, [.ch a]⟩).run db s → Eats s t w →
      ∃ c, foldCase c = foldCase a ∧ w = [c] := by
    intro a s t w ht he
    obtain ⟨c, cs, e, f, rfl⟩ := run_lit_ic ht
    exact ⟨c, f, (List.append_cancel_right (show [c] ++ cs = w ++ cs from e.symm.trans he.rest)).symm⟩
  obtain ⟨a, f1, rfl⟩ := key h1 a1
  obtain ⟨b, f2, rfl⟩ := key h2 a2
  obtain ⟨c, f3, rfl⟩ := key h3 a3
  obtain ⟨d, f4, rfl⟩ := key h4 b3
  obtain rfl : d = '.' := foldCase_of_not_letter (c := '.') (d := d) (by decide) (by decide) (f4.trans (by decide))
  exact ⟨a, b, c, f1.trans hw, f2.trans hw, f3.trans hw, a1.trans (a2.trans (a3.trans b3))⟩

section
variable {D : Char → Bool} {us0 : List U}
variable (hD : ∀ c, D c = true → isDelim c = true)
include hD

theorem cleanRe_of_avoids (db : CharDB) {r : Re} (hr : r.avoids delims = true) : CleanRe D db us0 r := by
  intro dict x _ m hm c hc
  obtain ⟨-, s, t, hrun, he, -, -⟩ := Re.search_some hm
  have := Re.avoids_run (delims_digit db) hr s t m hrun he c hc
  refine not_D hD ?_
  rcases hb : isDelim c with _ | _
  · rfl
  · exact absurd (isDelim_iff.mp hb) this

theorem cleanProt_of_noUrl (db : CharDB) (hu : NoUrl us0) : CleanProt D db us0 := by
  intro r hr dict x ⟨us, e, hg, hsem⟩ m hm c hc
  subst e
  obtain ⟨hne, s, t, hrun, he, -, htext⟩ := Re.search_some hm
  have hok : ∀ u ∈ us, u.Ok D := fun u hu => (hg u hu).ok
  -- a slash in the text is a slash in `us0`
  have hslash : '/' ∉ m := by
    intro h
    obtain ⟨m1, m2, rfl⟩ := List.append_of_mem h
    have := raw_infix (D := D) (w := ['/']) (rest := m2 ++ t.rest)
      (by simpa using not_D hD (show isDelim '/' = false by decide)) ⟨'/', by simp, by decide⟩ us (s.pre.reverse ++ m1) hok
      (by rw [htext]; simp)
    have := infix_semAll (dict := dict) this
    rw [hsem, semAll_ch] at this
    exact hu.1 (this.subset (by simp))
  have hav : ∀ r : Re, r.avoids delims = true → t ∈ r.run db s → D c = false := by
    intro r hr ht
    have := Re.avoids_run (delims_digit db) hr s t m ht he c hc
    refine not_D hD ?_
    rcases hb : isDelim c with _ | _
    · rfl
    · exact absurd (isDelim_iff.mp hb) this
  have hnd : ∀ r : Re, r.needs (· == '/') = true → t ∈ r.run db s → D c = false := by
    intro r hr ht
    obtain ⟨c', hc', hp⟩ := r.needs_run hr _ _ _ ht he
    rw [beq_iff_eq] at hp
    subst hp
    exact absurd hc' hslash
  have hurl : ∀ rest, t ∈ (Re.seq (.group 1 (.alt httpRe wwwRe)) rest).run db s → D c = false := by
    intro rest ht
    exfalso
    obtain ⟨u, w1, w2, hu1, -, h1, h2⟩ := Re.run_seq ht
    have hmw := he.uniq (h1.trans h2)
    simp only [Re.run, List.mem_map, List.mem_append] at hu1
    obtain ⟨v, hv, huv⟩ := hu1
    have h1' : Eats s v w1 := by
      obtain ⟨w, hw⟩ := Re.run_eats (Re.alt httpRe wwwRe) s v (by simpa only [Re.run, List.mem_append] using hv)
      subst huv
      have : w = w1 := by
        have e := hw.rest.symm.trans h1.rest
        exact List.append_cancel_right e
      exact this ▸ hw
    rcases hv with hv | hv
    · obtain ⟨c', hc', hp⟩ := httpRe.needs_run (p := (· == '/')) (by decide) _ _ _ hv h1'
      rw [beq_iff_eq] at hp
      subst hp
      exact hslash (by rw [hmw]; simp [hc'])
    · obtain ⟨a, b, d, fa, fb, fd, h3⟩ := www_run hv
      have hw1 := h1'.uniq h3
      have hraw : ∀ x ∈ [a, b, d, '.'], D x = false := by
        have hf : ∀ x, foldCase x = 'w' → D x = false := by
          intro x hx
          refine not_D hD ?_
          rcases hb : isDelim x with _ | _
          · rfl
          · have h5 := isDelim_iff.mp hb
            have : ∀ x ∈ delims, foldCase x ≠ 'w' := by decide
            exact absurd hx (this x h5)
        simp only [List.mem_cons, List.not_mem_nil, or_false, forall_eq_or_imp, forall_eq]
        exact ⟨hf a fa, hf b fb, hf d fd, not_D hD (by decide)⟩
      have := raw_infix (D := D) (w := [a, b, d, '.']) (rest := w2 ++ t.rest) hraw ⟨'.', by simp, by decide⟩ us s.pre.reverse hok
        (by rw [htext, hmw, hw1]; simp)
      have := infix_semAll (dict := dict) this
      rw [hsem, semAll_ch] at this
      refine hu.2 [a, b, d, '.'] ?_ this
      simp only [List.map_cons, List.map_nil, fold_w fa, fold_w fb, fold_w fd]
      rfl
  have hcases : r.avoids delims = true ∨ r.needs (· == '/') = true ∨ tokProtect[2]? = some r := by
    have : ∀ r ∈ tokProtect, r.avoids delims = true ∨ r.needs (· == '/') = true ∨ tokProtect[2]? = some r := by decide
    exact this r hr
  rcases hcases with h | h | h
  · exact hav r h hrun
  · exact hnd r h hrun
  · obtain ⟨rest, h'⟩ := urlRe_eq
    rw [h'] at h
    cases h
    exact hurl rest hrun

/-! ### The whole tokenizer, from protection on -/

variable (hD' : D '_' = true)
include hD'

/-- The text after the tokenizer stands for units that keep the markers apart and, up to white space, the text. -/
theorem tok_main (db : CharDB) {p : PState} (hn : NoNames us0) (hi : PInv D us0 p) :
    ∃ vs, unprotect p.dict (segment db p.text) = encode vs ∧ PlainU D vs ∧ LeT trBlocks us0 vs ∧
      (NoFeet db us0 → NoStars us0 → solids vs = solids us0) := by
  obtain ⟨us1, e1, g1, l1⟩ := Exact.toRestore hD hD' db hi.exact
  obtain ⟨us2, e2, g2, s2, b2⟩ := restore_all hD hD' hn db symVal (fun _ h => h) us1 g1 (l1 trLetters (.inl (.inl rfl)))
  have hreat : ∀ r ∈ tokReattach, reattachOk r = true := by decide +kernel
  obtain ⟨us3, e3, g3, b3, l3, s3⟩ := reattach_all hD hD' db tokReattach hreat us2 g2
  have hsym : ∀ s, U.bk s ∈ us3 → ¬ Sym s := fun s hs h => (b2 s (b3 s hs)).2 h
  have hval : ∀ q ∈ p.dict, (∃ k, q.1 = protectKey k) ∧ ∀ c ∈ q.2, D c = false := fun q hq => by
    obtain ⟨⟨k, h1, -⟩, h2⟩ := hi.dict q hq
    exact ⟨⟨k, h1⟩, h2⟩
  refine ⟨semAll p.dict us3, ?_, ?_, ?_, ?_⟩
  · rw [← putBack_sem hD hD' g3 hsym, ← unprotect_units hD hD' p.dict hval us3 g3 hsym, ← e3, ← e2, ← restore_eq, ← e1]
    rfl
  · intro u hu
    rw [semAll, List.mem_flatMap] at hu
    obtain ⟨v, hv, hu⟩ := hu
    have hgv := g3 v hv
    cases v with
    | ch c =>
      simp only [sem, List.mem_singleton] at hu
      exact .inl ⟨c, hu, hgv⟩
    | bk s =>
      rcases hgv.2 with h | ⟨⟨i, rfl⟩, v, hv'⟩ | h
      · exact absurd h (hsym s hv)
      · simp only [sem, key_not_sym, hv', List.mem_map] at hu
        obtain ⟨c, hc, rfl⟩ := hu
        exact .inl ⟨c, rfl, (hval _ (Dict.mem_of_get? hv')).2 c hc⟩
      · have hnone : Dict.get? p.dict s = none := by
          rcases hq : Dict.get? p.dict s with _ | v
          · rfl
          · obtain ⟨⟨k, hk⟩, -⟩ := hval _ (Dict.mem_of_get? hq)
            simp only at hk
            subst hk
            exact absurd (by simp [protectKey]) (mark_no_underscore h)
        simp only [sem, mark_not_sym h, hnone, List.mem_singleton] at hu
        exact .inr ⟨s, hu, hgv.1, h⟩
  · have := l1 trBlocks (.inl (.inr rfl))
    rw [← s2] at this
    exact this.trans l3
  · intro hf hs
    rw [s3, s2, (l1 trSolids (.inr ⟨.inl rfl, hf, hs⟩)).solids]

end

end Model
