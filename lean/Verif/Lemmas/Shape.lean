import Verif.Lemmas.Units

/-! # What a match looks like

Static checks of patterns: which characters a match cannot eat (`Re.avoids`), and the sequence of literals, white space
and groups that make up a match (`Re.shape`). -/

namespace Py

/-! ### Characters that are never eaten -/

/-- No character of the list belongs to the class (sufficient condition). -/
def Cls.avoids (l : List Char) (k : Cls) : Bool :=
  !k.neg && k.items.all fun
    | .ch a => l.all fun d => if k.ic then foldCase a != foldCase d else a != d
    | .range a b => l.all fun d =>
      if k.ic then !((lowerLetter a).toNat ≤ (foldCase d).toNat && (foldCase d).toNat ≤ (lowerLetter b).toNat)
      else !(a.toNat ≤ d.toNat && d.toNat ≤ b.toNat)
    | .digit => true
    | .space => true
    | .word => false
    | .dot => false

/-- No match eats a character of the list (sufficient condition). -/
def Re.avoids (l : List Char) : Re → Bool
  | .cls k => k.avoids l
  | .seq a b => a.avoids l && b.avoids l
  | .alt a b => a.avoids l && b.avoids l
  | .rep _ _ a => a.avoids l
  | .group _ a => a.avoids l
  | _ => true

theorem Cls.avoids_test {db : CharDB} {l : List Char} (hd : ∀ d ∈ l, db.digit d = false ∧ isSpace d = false) {k : Cls}
    (h : k.avoids l = true) {c : Char} (hc : c ∈ l) : k.test db c = false := by
  unfold Cls.avoids at h
  rw [Bool.and_eq_true, Bool.not_eq_true'] at h
  unfold Cls.test
  rw [h.1]
  simp only [bne_eq_false_iff_eq]
  rw [List.any_eq_false]
  intro i hi
  have := List.all_eq_true.mp h.2 i hi
  cases i with
  | ch a =>
    simp only [List.all_eq_true] at this
    have := this c hc
    unfold Item.test
    simp only
    split
    · rename_i hic
      rw [if_pos hic] at this
      simpa using this
    · rename_i hic
      rw [if_neg hic] at this
      simpa using this
  | range a b =>
    simp only [List.all_eq_true] at this
    have := this c hc
    unfold Item.test
    simp only
    split
    · rename_i hic
      rw [if_pos hic] at this
      simp at this ⊢
      omega
    · rename_i hic
      rw [if_neg hic] at this
      simp at this ⊢
      omega
  | digit => simp [Item.test, (hd c hc).1]
  | space => simp [Item.test, (hd c hc).2]
  | word => simp at this
  | dot => simp at this

/-- A property of all eaten characters, from the classes. -/
theorem Re.run_all {db : CharDB} (p : Char → Prop) (ok : Re → Bool)
    (hcls : ∀ k, ok (.cls k) = true → ∀ c, k.test db c = true → p c)
    (hseq : ∀ a b, ok (.seq a b) = true → ok a = true ∧ ok b = true)
    (halt : ∀ a b, ok (.alt a b) = true → ok a = true ∧ ok b = true)
    (hrep : ∀ n g a, ok (.rep n g a) = true → ok a = true)
    (hgroup : ∀ n a, ok (.group n a) = true → ok a = true) (r : Re) (h : ok r = true) :
    ∀ s t w, t ∈ r.run db s → Eats s t w → ∀ c ∈ w, p c := by
  have zero : ∀ (s t : St) (w : Str), t = s → Eats s t w → ∀ c ∈ w, p c := by
    intro s t w hts he
    subst hts
    rw [he.uniq (Eats.refl t)]
    simp
  induction r with
  | eps => intro s t w ht he; exact zero s t w (Re.run_zero (by trivial) ht) he
  | bos => intro s t w ht he; exact zero s t w (Re.run_zero (by trivial) ht) he
  | eos => intro s t w ht he; exact zero s t w (Re.run_zero (by trivial) ht) he
  | wordB => intro s t w ht he; exact zero s t w (Re.run_zero (by trivial) ht) he
  | ahead n a _ => intro s t w ht he; exact zero s t w (Re.run_zero (by trivial) ht) he
  | behind n a _ => intro s t w ht he; exact zero s t w (Re.run_zero (by trivial) ht) he
  | cls k =>
    intro s t w ht he
    obtain ⟨c, cs, hs, hk, rfl⟩ := Re.run_cls ht
    have : Eats s ⟨c :: s.pre, cs, s.caps⟩ [c] := ⟨by simpa using hs, by simp, [], rfl, by simp⟩
    rw [he.uniq this]
    simpa using hcls k h c hk
  | seq a b iha ihb =>
    intro s t w ht he
    obtain ⟨u, w1, w2, hu, ht', h1, h2⟩ := Re.run_seq ht
    rw [he.uniq (h1.trans h2)]
    intro c hc
    rcases List.mem_append.mp hc with hc | hc
    · exact iha (hseq a b h).1 s u w1 hu h1 c hc
    · exact ihb (hseq a b h).2 u t w2 ht' h2 c hc
  | alt a b iha ihb =>
    intro s t w ht he
    simp only [Re.run, List.mem_append] at ht
    rcases ht with ht | ht
    · exact iha (halt a b h).1 s t w ht he
    · exact ihb (halt a b h).2 s t w ht he
  | group n a iha =>
    intro s t w ht he
    simp only [Re.run, List.mem_map] at ht
    obtain ⟨u, hu, rfl⟩ := ht
    obtain ⟨w', h1⟩ := a.run_eats s u hu
    have e : w = w' := by
      have e1 := he.word
      simp only at e1
      rw [← e1, h1.word]
    subst e
    exact iha (hgroup n a h) s u w hu h1
  | rep n g a iha =>
    have iha := iha (hrep n g a h)
    intro s t w ht he
    simp only [Re.run, List.mem_flatMap] at ht
    obtain ⟨u, hu, ht⟩ := ht
    have htimes : ∀ (n : Nat) (s u : St), u ∈ times (a.run db) n s → ∃ w, Eats s u w ∧ ∀ c ∈ w, p c := by
      intro n
      induction n with
      | zero =>
        intro s u hu
        simp only [times, List.mem_singleton] at hu
        subst hu
        exact ⟨[], .refl u, by simp⟩
      | succ n ih =>
        intro s u hu
        simp only [times, List.mem_flatMap] at hu
        obtain ⟨x, hx, hu⟩ := hu
        obtain ⟨w1, h1⟩ := a.run_eats s x hx
        obtain ⟨w2, h2, h3⟩ := ih x u hu
        refine ⟨w1 ++ w2, h1.trans h2, fun c hc => ?_⟩
        rcases List.mem_append.mp hc with hc | hc
        · exact iha s x w1 hx h1 c hc
        · exact h3 c hc
    have hmany : ∀ (n : Nat) (s u : St), u ∈ many (a.run db) g n s → ∃ w, Eats s u w ∧ ∀ c ∈ w, p c := by
      intro n
      induction n with
      | zero =>
        intro s u hu
        simp only [many, List.mem_singleton] at hu
        subst hu
        exact ⟨[], .refl u, by simp⟩
      | succ n ih =>
        intro s u hu
        rcases mem_many hu with rfl | ⟨x, hx, -, hu⟩
        · exact ⟨[], .refl u, by simp⟩
        · obtain ⟨w1, h1⟩ := a.run_eats s x hx
          obtain ⟨w2, h2, h3⟩ := ih x u hu
          refine ⟨w1 ++ w2, h1.trans h2, fun c hc => ?_⟩
          rcases List.mem_append.mp hc with hc | hc
          · exact iha s x w1 hx h1 c hc
          · exact h3 c hc
    obtain ⟨w1, h1, h2⟩ := htimes n s u hu
    obtain ⟨w2, h3, h4⟩ := hmany _ u t ht
    rw [he.uniq (h1.trans h3)]
    intro c hc
    rcases List.mem_append.mp hc with hc | hc
    · exact h2 c hc
    · exact h4 c hc

theorem Re.avoids_run {db : CharDB} {l : List Char} (hd : ∀ d ∈ l, db.digit d = false ∧ isSpace d = false) {r : Re}
    (h : r.avoids l = true) : ∀ s t w, t ∈ r.run db s → Eats s t w → ∀ c ∈ w, c ∉ l := by
  refine Re.run_all _ (Re.avoids l) ?_ ?_ ?_ ?_ ?_ r h
  · intro k hk c hc hl
    rw [Cls.avoids_test hd hk hl] at hc
    cases hc
  · intro a b h; simpa [Re.avoids] using h
  · intro a b h; simpa [Re.avoids] using h
  · intro n g a h; simpa [Re.avoids] using h
  · intro n a h; simpa [Re.avoids] using h

/-! ### White space -/

/-- The class contains white space only. -/
def Cls.wsOnly (k : Cls) : Bool :=
  !k.neg && k.items.all fun
    | .space => true
    | .ch c => !k.ic && isSpace c
    | _ => false

/-- Only white space is eaten. -/
def Re.wsOnly : Re → Bool
  | .cls k => k.wsOnly
  | .seq a b => a.wsOnly && b.wsOnly
  | .alt a b => a.wsOnly && b.wsOnly
  | .rep _ _ a => a.wsOnly
  | .group _ a => a.wsOnly
  | _ => true

theorem Re.wsOnly_run {db : CharDB} {r : Re} (h : r.wsOnly = true) :
    ∀ s t w, t ∈ r.run db s → Eats s t w → ∀ c ∈ w, isSpace c = true := by
  refine Re.run_all _ Re.wsOnly ?_ ?_ ?_ ?_ ?_ r h
  · intro k hk c hc
    simp only [Re.wsOnly, Cls.wsOnly, Bool.and_eq_true, Bool.not_eq_true'] at hk
    unfold Cls.test at hc
    rw [hk.1, bne_iff_ne, Bool.ne_false_iff, List.any_eq_true] at hc
    obtain ⟨i, hi, ht⟩ := hc
    have := List.all_eq_true.mp hk.2 i hi
    cases i <;> simp only [Bool.false_eq_true, Bool.and_eq_true, Bool.not_eq_true'] at this
    · rename_i a
      unfold Item.test at ht
      simp only [this.1] at ht
      simp only [Bool.false_eq_true, if_false] at ht
      rw [← beq_iff_eq.mp ht]
      exact this.2
    · exact ht
  · intro a b h; simpa [Re.wsOnly] using h
  · intro a b h; simpa [Re.wsOnly] using h
  · intro n g a h; simpa [Re.wsOnly] using h
  · intro n a h; simpa [Re.wsOnly] using h

/-! ### Shapes -/

/-- Numbers of the groups of a pattern. -/
def Re.grps : Re → List Nat
  | .seq a b => a.grps ++ b.grps
  | .alt a b => a.grps ++ b.grps
  | .rep _ _ a => a.grps
  | .group n a => n :: a.grps
  | _ => []

theorem times_caps {f : St → List St} {l : List Nat}
    (hf : ∀ s t, t ∈ f s → ∃ new, t.caps = new ++ s.caps ∧ ∀ p ∈ new, p.1 ∈ l) : ∀ (n : Nat) (s t : St),
    t ∈ times f n s → ∃ new, t.caps = new ++ s.caps ∧ ∀ p ∈ new, p.1 ∈ l
  | 0, s, t, h => by
    simp only [times, List.mem_singleton] at h
    subst h
    exact ⟨[], rfl, by simp⟩
  | n + 1, s, t, h => by
    simp only [times, List.mem_flatMap] at h
    obtain ⟨u, hu, h⟩ := h
    obtain ⟨n1, e1, p1⟩ := hf s u hu
    obtain ⟨n2, e2, p2⟩ := times_caps hf n u t h
    exact ⟨n2 ++ n1, by rw [e2, e1, List.append_assoc], fun p hp => (List.mem_append.mp hp).elim (p2 p) (p1 p)⟩

theorem many_caps {f : St → List St} {l : List Nat} {g : Bool}
    (hf : ∀ s t, t ∈ f s → ∃ new, t.caps = new ++ s.caps ∧ ∀ p ∈ new, p.1 ∈ l) : ∀ (n : Nat) (s t : St),
    t ∈ many f g n s → ∃ new, t.caps = new ++ s.caps ∧ ∀ p ∈ new, p.1 ∈ l
  | 0, s, t, h => by
    simp only [many, List.mem_singleton] at h
    subst h
    exact ⟨[], rfl, by simp⟩
  | n + 1, s, t, h => by
    rcases mem_many h with rfl | ⟨u, hu, -, h⟩
    · exact ⟨[], rfl, by simp⟩
    obtain ⟨n1, e1, p1⟩ := hf s u hu
    obtain ⟨n2, e2, p2⟩ := many_caps hf n u t h
    exact ⟨n2 ++ n1, by rw [e2, e1, List.append_assoc], fun p hp => (List.mem_append.mp hp).elim (p2 p) (p1 p)⟩

/-- The groups closed by a match are groups of the pattern. -/
theorem Re.run_grps {db : CharDB} (r : Re) : ∀ s t : St, t ∈ r.run db s →
    ∃ new, t.caps = new ++ s.caps ∧ ∀ p ∈ new, p.1 ∈ r.grps := by
  induction r with
  | eps => intro s t h; exact ⟨[], by rw [Re.run_zero (by trivial) h]; rfl, by simp⟩
  | bos => intro s t h; exact ⟨[], by rw [Re.run_zero (by trivial) h]; rfl, by simp⟩
  | eos => intro s t h; exact ⟨[], by rw [Re.run_zero (by trivial) h]; rfl, by simp⟩
  | wordB => intro s t h; exact ⟨[], by rw [Re.run_zero (by trivial) h]; rfl, by simp⟩
  | ahead n a _ => intro s t h; exact ⟨[], by rw [Re.run_zero (by trivial) h]; rfl, by simp⟩
  | behind n a _ => intro s t h; exact ⟨[], by rw [Re.run_zero (by trivial) h]; rfl, by simp⟩
  | cls k =>
    intro s t h
    obtain ⟨c, cs, hs, -, rfl⟩ := Re.run_cls h
    exact ⟨[], rfl, by simp⟩
  | seq a b iha ihb =>
    intro s t h
    simp only [Re.run, List.mem_flatMap] at h
    obtain ⟨u, hu, h⟩ := h
    obtain ⟨n1, e1, p1⟩ := iha s u hu
    obtain ⟨n2, e2, p2⟩ := ihb u t h
    exact ⟨n2 ++ n1, by rw [e2, e1, List.append_assoc], fun p hp => by
      simp only [Re.grps, List.mem_append]
      exact (List.mem_append.mp hp).elim (fun h => .inr (p2 p h)) (fun h => .inl (p1 p h))⟩
  | alt a b iha ihb =>
    intro s t h
    simp only [Re.run, List.mem_append] at h
    rcases h with h | h
    · obtain ⟨n1, e1, p1⟩ := iha s t h
      exact ⟨n1, e1, fun p hp => by simp [Re.grps, p1 p hp]⟩
    · obtain ⟨n1, e1, p1⟩ := ihb s t h
      exact ⟨n1, e1, fun p hp => by simp [Re.grps, p1 p hp]⟩
  | group n a iha =>
    intro s t h
    simp only [Re.run, List.mem_map] at h
    obtain ⟨u, hu, rfl⟩ := h
    obtain ⟨n1, e1, p1⟩ := iha s u hu
    refine ⟨(n, s.rest.take (s.rest.length - u.rest.length)) :: n1, by simp [e1], ?_⟩
    intro p hp
    rcases List.mem_cons.mp hp with rfl | hp
    · simp [Re.grps]
    · simp [Re.grps, p1 p hp]
  | rep n g a iha =>
    intro s t h
    simp only [Re.run, List.mem_flatMap] at h
    obtain ⟨u, hu, h⟩ := h
    obtain ⟨n1, e1, p1⟩ := times_caps iha n s u hu
    obtain ⟨n2, e2, p2⟩ := many_caps iha _ u t h
    exact ⟨n2 ++ n1, by rw [e2, e1, List.append_assoc], fun p hp => by
      simp only [Re.grps]
      exact (List.mem_append.mp hp).elim (p2 p) (p1 p)⟩

theorem capText_append {new caps : List (Nat × Str)} {n : Nat} (h : ∀ p ∈ new, p.1 ≠ n) :
    capText (new ++ caps) n = capText caps n := by
  unfold capText
  rw [List.find?_append, List.find?_eq_none.mpr (fun p hp => by simpa using h p hp)]
  rfl

theorem capText_cons_self (caps : List (Nat × Str)) (n : Nat) (w : Str) : capText ((n, w) :: caps) n = w := by
  simp [capText]

/-- A part of a match. -/
inductive It where
  | grp (n : Nat)
  | lit (c : Char)
  /-- white space, possibly none -/
  | ws
  deriving DecidableEq, Repr

/-- The class of one character that has no upper or lower case. -/
def Cls.lit? (k : Cls) : Option Char :=
  match k with
  | ⟨false, ic, [.ch c]⟩ =>
    if !ic || decide (foldCase c = c ∧ ¬ (97 ≤ c.toNat ∧ c.toNat ≤ 122)) then some c else none
  | _ => none

/-- The sequence of parts of a match. -/
def Re.shape : Re → Option (List It)
  | .cls k => if k.wsOnly then some [.ws] else k.lit?.map fun c => [.lit c]
  | .seq a b =>
    match a.shape, b.shape with
    | some x, some y => if a.grps.all fun n => !b.grps.contains n then some (x ++ y) else none
    | _, _ => none
  | .alt a b => if a.wsOnly && b.wsOnly then some [.ws] else none
  | .rep _ _ a => if a.wsOnly then some [.ws] else none
  | .group n a => if a.wsOnly then some [.ws] else some [.grp n]
  | _ => some []

/-- The text is made of the parts; groups as recorded. -/
inductive Pieces (caps : List (Nat × Str)) : List It → Str → Prop where
  | nil : Pieces caps [] []
  | ws {v : Str} {is : List It} {w : Str} : (∀ c ∈ v, isSpace c = true) → Pieces caps is w → Pieces caps (.ws :: is) (v ++ w)
  | lit {c : Char} {is : List It} {w : Str} : Pieces caps is w → Pieces caps (.lit c :: is) (c :: w)
  | grp {n : Nat} {is : List It} {w : Str} : Pieces caps is w → Pieces caps (.grp n :: is) (capText caps n ++ w)

theorem Pieces.append {caps : List (Nat × Str)} {is js : List It} {w v : Str} (h : Pieces caps is w)
    (h' : Pieces caps js v) : Pieces caps (is ++ js) (w ++ v) := by
  induction h with
  | nil => exact h'
  | ws hv _ ih => rw [List.append_assoc]; exact .ws hv ih
  | lit _ ih => exact .lit ih
  | grp _ ih => rw [List.append_assoc]; exact .grp ih

theorem Cls.lit?_test {db : CharDB} {k : Cls} {c : Char} (h : k.lit? = some c) {d : Char} (hd : k.test db d = true) :
    d = c := by
  unfold Cls.lit? at h
  split at h
  · rename_i ic c'
    split at h
    · rename_i hc
      obtain rfl : c' = c := by simpa using h
      simp only [Cls.test, List.any_cons, List.any_nil, Bool.or_false, bne_iff_ne, Bool.ne_false_iff] at hd
      unfold Item.test at hd
      simp only at hd
      split at hd
      · rename_i hic
        rw [hic] at hc
        simp only [Bool.not_true, Bool.false_or, decide_eq_true_eq] at hc
        have e := beq_iff_eq.mp hd
        rw [hc.1] at e
        exact foldCase_of_not_letter hc.1 hc.2 e.symm
      · exact (beq_iff_eq.mp hd).symm
    · cases h
  · cases h

/-- A match has the shape of the pattern. -/
theorem Re.shape_run {db : CharDB} (r : Re) : ∀ (is : List It), r.shape = some is → ∀ (s t : St) (w : Str),
    t ∈ r.run db s → Eats s t w → ∀ caps, (∀ n ∈ r.grps, capText caps n = capText t.caps n) → Pieces caps is w := by
  have zero : ∀ (is : List It) (s t : St) (w : Str) caps, some [] = some is → t = s → Eats s t w → Pieces caps is w := by
    intro is s t w caps h hts he
    subst hts
    rw [he.uniq (Eats.refl t)]
    obtain rfl : [] = is := by simpa using h
    exact .nil
  have hws : ∀ (r : Re), r.wsOnly = true → ∀ (s t : St) (w : Str), t ∈ r.run db s → Eats s t w → ∀ caps,
      Pieces caps [.ws] w := by
    intro r h s t w ht he caps
    have := Pieces.ws (caps := caps) (Re.wsOnly_run h s t w ht he) .nil
    simpa using this
  induction r with
  | eps => intro is h s t w ht he caps _; exact zero is s t w caps h (Re.run_zero (by trivial) ht) he
  | bos => intro is h s t w ht he caps _; exact zero is s t w caps h (Re.run_zero (by trivial) ht) he
  | eos => intro is h s t w ht he caps _; exact zero is s t w caps h (Re.run_zero (by trivial) ht) he
  | wordB => intro is h s t w ht he caps _; exact zero is s t w caps h (Re.run_zero (by trivial) ht) he
  | ahead n a _ => intro is h s t w ht he caps _; exact zero is s t w caps h (Re.run_zero (by trivial) ht) he
  | behind n a _ => intro is h s t w ht he caps _; exact zero is s t w caps h (Re.run_zero (by trivial) ht) he
  | cls k =>
    intro is h s t w ht he caps _
    simp only [Re.shape] at h
    split at h
    · rename_i hk
      obtain rfl : [It.ws] = is := by simpa using h
      exact hws (.cls k) hk s t w ht he caps
    · rw [Option.map_eq_some_iff] at h
      obtain ⟨c, hc, rfl⟩ := h
      obtain ⟨d, cs, hs, hk, rfl⟩ := Re.run_cls ht
      have : Eats s ⟨d :: s.pre, cs, s.caps⟩ [d] := ⟨by simpa using hs, by simp, [], rfl, by simp⟩
      rw [he.uniq this, Cls.lit?_test hc hk]
      exact .lit .nil
  | seq a b iha ihb =>
    intro is h s t w ht he caps hcaps
    simp only [Re.shape] at h
    split at h
    · rename_i x y hx hy
      split at h
      · rename_i hdis
        obtain rfl : x ++ y = is := by simpa using h
        obtain ⟨u, w1, w2, hu, ht', h1, h2⟩ := Re.run_seq ht
        rw [he.uniq (h1.trans h2)]
        refine (iha x hx s u w1 hu h1 caps ?_).append (ihb y hy u t w2 ht' h2 caps fun n hn => hcaps n (by simp [Re.grps, hn]))
        intro n hn
        rw [hcaps n (by simp [Re.grps, hn])]
        obtain ⟨new, e, hp⟩ := b.run_grps u t ht'
        rw [e]
        refine capText_append fun p hp' e' => ?_
        have := List.all_eq_true.mp hdis n hn
        rw [Bool.not_eq_true'] at this
        have h3 := hp p hp'
        rw [e'] at h3
        rw [List.contains_iff_mem.mpr h3] at this
        cases this
      · cases h
    · cases h
  | alt a b _ _ =>
    intro is h s t w ht he caps _
    simp only [Re.shape] at h
    split at h
    · rename_i hk
      obtain rfl : [It.ws] = is := by simpa using h
      exact hws (.alt a b) hk s t w ht he caps
    · cases h
  | rep n g a _ =>
    intro is h s t w ht he caps _
    simp only [Re.shape] at h
    split at h
    · rename_i hk
      obtain rfl : [It.ws] = is := by simpa using h
      exact hws (.rep n g a) hk s t w ht he caps
    · cases h
  | group n a _ =>
    intro is h s t w ht he caps hcaps
    simp only [Re.shape] at h
    split at h
    · rename_i hk
      obtain rfl : [It.ws] = is := by simpa using h
      exact hws (.group n a) hk s t w ht he caps
    · obtain rfl : [It.grp n] = is := by simpa using h
      have e : capText caps n = w := by
        rw [hcaps n (by simp [Re.grps])]
        simp only [Re.run, List.mem_map] at ht
        obtain ⟨u, hu, rfl⟩ := ht
        rw [capText_cons_self]
        exact he.word
      have := Pieces.grp (caps := caps) (n := n) .nil
      rw [e] at this
      simpa using this

end Py
