import Verif.Lemmas.PlainWords

/-! # Texts made of characters and blocks

Between protection and restoration, the tokenizer works on texts in which parts are replaced by blocks such as `_NSD_` or
`_PROTECTED_1_`; the sentencizer adds the markers `༺0༻` and `⦅0⦆`.  A text is seen here as a list of units, each a plain
character or a block.  A substitution whose pattern eats no delimiter and cannot match inside a block acts on the runs
of plain characters only. -/

namespace Model
open Py

/-- A unit: a plain character or a block. -/
inductive U where
  | ch (c : Char)
  | bk (s : Str)
  deriving DecidableEq, Repr

/-- The text of a unit. -/
def U.enc : U → Str
  | .ch c => [c]
  | .bk s => s

/-- The text of a list of units. -/
def encode (us : List U) : Str := us.flatMap U.enc

@[simp] theorem encode_nil : encode [] = [] := rfl
@[simp] theorem encode_cons (u : U) (us : List U) : encode (u :: us) = u.enc ++ encode us := by simp [encode]
@[simp] theorem encode_append (a b : List U) : encode (a ++ b) = encode a ++ encode b := by simp [encode]
@[simp] theorem encode_ch (w : Str) : encode (w.map U.ch) = w := by
  induction w with
  | nil => rfl
  | cons c w ih => simp [U.enc, ih]

/-- Characters inside the blocks. -/
def isName (c : Char) : Bool := c.isDigit || ['P', 'R', 'O', 'T', 'E', 'C', 'D', 'N', 'S', 'G', 'L'].contains c

/-- The delimiters of blocks. -/
def isDelim (c : Char) : Bool := ['_', '༺', '༻', '⦅', '⦆'].contains c

/-- A block: delimiters at both ends, delimiters and name characters between. -/
def BlkOk (D : Char → Bool) (s : Str) : Prop :=
  ∃ a mid b, s = a :: (mid ++ [b]) ∧ D a = true ∧ D b = true ∧ ∀ c ∈ mid, D c = true ∨ isName c = true

/-- Plain characters are no delimiters. -/
def U.Ok (D : Char → Bool) : U → Prop
  | .ch c => D c = false
  | .bk s => BlkOk D s

/-- Part of the text without delimiters is a run of plain characters. -/
theorem take_raw {D : Char → Bool} : ∀ (w : Str) (us : List U) (rest : Str), (∀ u ∈ us, u.Ok D) →
    encode us = w ++ rest → (∀ c ∈ w, D c = false) → ∃ us', us = w.map U.ch ++ us' ∧ rest = encode us'
  | [], us, rest, _, e, _ => ⟨us, rfl, e.symm⟩
  | c :: w, us, rest, hok, e, hw => by
    cases us with
    | nil => simp at e
    | cons u us =>
      have hu := hok u (by simp)
      cases u with
      | ch d =>
        simp only [encode_cons, U.enc, List.singleton_append, List.cons_append, List.cons.injEq] at e
        obtain ⟨rfl, e⟩ := e
        obtain ⟨us', h1, h2⟩ := take_raw w us rest (fun u hu => hok u (by simp [hu])) e fun c hc => hw c (by simp [hc])
        exact ⟨us', by simp [h1], h2⟩
      | bk s =>
        obtain ⟨a, mid, b, rfl, ha, -, -⟩ := hu
        simp only [encode_cons, U.enc, List.cons_append, List.cons.injEq] at e
        rw [e.1, hw c (by simp)] at ha
        cases ha

/-- Text without delimiters that starts inside a block ends inside it. -/
theorem inside_block {D : Char → Bool} {s x v rest w rest' : Str} (hs : BlkOk D s) (e : s = x ++ v) (hx : x ≠ [])
    (hv : v ≠ []) (e' : v ++ rest = w ++ rest') (hw : ∀ c ∈ w, D c = false) : ∀ c ∈ w, isName c = true := by
  obtain ⟨a, mid, b, rfl, -, hb, hm⟩ := hs
  obtain ⟨x0, x', rfl⟩ := List.exists_cons_of_ne_nil hx
  simp only [List.cons_append, List.cons.injEq] at e
  obtain ⟨rfl, e⟩ := e
  obtain ⟨v', b', rfl⟩ := (List.eq_nil_or_concat v).resolve_left hv
  have e2 : mid ++ [b] = (x' ++ v') ++ [b'] := by rw [e]; simp
  obtain rfl : mid = x' ++ v' := List.append_inj_left' e2 rfl
  obtain rfl : b = b' := by simpa using List.append_inj_right' e2 rfl
  have e3 : v' ++ (b :: rest) = w ++ rest' := by rw [← e']; simp
  have key : ∀ c ∈ w, c ∈ v' := by
    rcases List.append_eq_append_iff.mp e3 with ⟨a', h1, h2⟩ | ⟨c', h1, h2⟩
    · cases a' with
      | nil => simp only [List.append_nil] at h1; subst h1; exact fun c hc => hc
      | cons d a' =>
        simp only [List.cons_append, List.cons.injEq] at h2
        obtain ⟨rfl, -⟩ := h2
        have := hw b (by rw [h1]; simp)
        rw [hb] at this
        cases this
    · subst h1
      exact fun c hc => by simp [hc]
  intro c hc
  rcases hm c (by simp [key c hc]) with h | h
  · rw [hw c hc] at h; cases h
  · exact h

/-- Units obtained by replacing runs of plain characters. -/
inductive Rewr (P : Str → List U → Prop) : List U → List U → Prop where
  | nil : Rewr P [] []
  | keep (u : U) {a b : List U} : Rewr P a b → Rewr P (u :: a) (u :: b)
  | repl {w : Str} {e a b : List U} : P w e → Rewr P a b → Rewr P (w.map U.ch ++ a) (e ++ b)

/-- The pattern eats no delimiter, and something that does not occur in block names. -/
def Safe (db : CharDB) (r : Re) : Prop :=
  ∀ s t w, t ∈ r.run db s → Eats s t w → (∀ c ∈ w, isDelim c = false) ∧ ∃ c ∈ w, isName c = false

/-- A substitution acts on the runs of plain characters. -/
theorem subFrom_units {D : Char → Bool} (hD : ∀ c, D c = true → isDelim c = true) {db : CharDB} {r : Re} {tpl : List Tp}
    (hs : Safe db r) (P : Str → List U → Prop) : ∀ (k : Nat) (us : List U) (n : Nat) (pre : Str), us.length ≤ k →
    (∀ u ∈ us, u.Ok D) → (encode us).length ≤ n →
    (∀ w pre t, (w.map U.ch) <:+: us → t ∈ r.run db ⟨pre, w ++ t.rest, []⟩ → Eats ⟨pre, w ++ t.rest, []⟩ t w →
      ∃ e, P w e ∧ expand w t.caps tpl = encode e) →
    ∃ us', Rewr P us us' ∧ r.subFrom db tpl n pre (encode us) = encode us' := by
  have hraw : ∀ s t w, t ∈ r.run db s → Eats s t w → ∀ c ∈ w, D c = false := fun s t w ht he c hc => by
    rcases h : D c with _ | _
    · rfl
    · have := (hs s t w ht he).1 c hc
      rw [hD c h] at this
      cases this
  intro k
  induction k with
  | zero =>
    intro us n pre hk hok hn hP
    obtain rfl : us = [] := List.length_eq_zero_iff.mp (by omega)
    refine ⟨[], .nil, ?_⟩
    rw [encode_nil]
    rw [subFrom_fuel n 0 pre [] (by simp) (by simp)]
    rfl
  | succ k ih =>
    intro us n pre hk hok hn hP
    cases us with
    | nil =>
      refine ⟨[], .nil, ?_⟩
      rw [encode_nil]
      rw [subFrom_fuel n 0 pre [] (by simp) (by simp)]
      rfl
    | cons u us =>
      have hok' : ∀ u ∈ us, u.Ok D := fun v hv => hok v (by simp [hv])
      have hP' : ∀ (vs : List U), vs <:+ us → ∀ w pre t, (w.map U.ch) <:+: vs → t ∈ r.run db ⟨pre, w ++ t.rest, []⟩ →
          Eats ⟨pre, w ++ t.rest, []⟩ t w → ∃ e, P w e ∧ expand w t.caps tpl = encode e := fun vs hvs w pre t hw =>
        hP w pre t ((hw.trans hvs.isInfix).trans (List.suffix_cons u us).isInfix)
      cases u with
      | bk s =>
        have hsok : BlkOk D s := hok (.bk s) (by simp)
        obtain ⟨m, rfl⟩ : ∃ m, n = s.length + m := ⟨n - s.length, by simp [U.enc] at hn; omega⟩
        have hskip : ∀ u v, s = u ++ v → v ≠ [] → r.matchAt db (u.reverse ++ pre) (v ++ encode us) = none := by
          intro x v hxv hv
          rcases hm : r.matchAt db (x.reverse ++ pre) (v ++ encode us) with _ | t
          · rfl
          · exfalso
            obtain ⟨ht, w, hw, he⟩ := Re.matchAt_some hm
            have e1 : v ++ encode us = w ++ t.rest := he.rest
            have hwD := hraw _ _ _ ht he
            obtain ⟨c, hc, hcn⟩ := (hs _ _ _ ht he).2
            cases x with
            | nil =>
              obtain ⟨a, mid, b, rfl, ha, -, -⟩ := hsok
              obtain ⟨d, w', rfl⟩ := List.exists_cons_of_ne_nil hw
              simp only [List.nil_append] at hxv
              subst hxv
              simp only [List.cons_append, List.cons.injEq] at e1
              rw [e1.1, hwD d (by simp)] at ha
              cases ha
            | cons x0 x' =>
              have := inside_block hsok hxv (by simp) hv e1 hwD c hc
              rw [hcn] at this
              cases this
        obtain ⟨us', h1, h2⟩ := ih us m (s.reverse ++ pre) (by simpa using hk) hok' (by simp [U.enc] at hn; omega)
          (hP' us List.suffix_rfl)
        refine ⟨.bk s :: us', .keep _ h1, ?_⟩
        rw [encode_cons, U.enc, subFrom_skip m s pre (encode us) hskip, h2, encode_cons, U.enc]
      | ch c =>
        obtain ⟨m, rfl⟩ : ∃ m, n = m + 1 := ⟨n - 1, by simp [U.enc] at hn; omega⟩
        rcases hm : r.matchAt db pre (encode (.ch c :: us)) with _ | t
        · have hm' : r.matchAt db pre (c :: encode us) = none := by simpa [U.enc] using hm
          obtain ⟨us', h1, h2⟩ := ih us m (c :: pre) (by simpa using hk) hok' (by simp [U.enc] at hn; omega)
            (hP' us List.suffix_rfl)
          refine ⟨.ch c :: us', .keep _ h1, ?_⟩
          have e : encode (.ch c :: us) = c :: encode us := by simp [U.enc]
          rw [e, Re.subFrom_cons_none hm', h2]
          simp [U.enc]
        · obtain ⟨ht, w, hw, he⟩ := Re.matchAt_some hm
          have hwD := hraw _ _ _ ht he
          obtain ⟨vs, h1, h2⟩ := take_raw w _ _ hok (show encode (.ch c :: us) = w ++ t.rest from he.rest) hwD
          obtain ⟨c', w', rfl⟩ := List.exists_cons_of_ne_nil hw
          simp only [List.map_cons, List.cons_append, List.cons.injEq, U.ch.injEq] at h1
          obtain ⟨rfl, h1⟩ := h1
          have hvs : vs <:+ us := ⟨_, h1.symm⟩
          have hlen : vs.length ≤ k := by
            have := hvs.length_le
            simp at hk
            omega
          have hrest : (encode vs).length ≤ m := by
            have := congrArg List.length he.rest
            simp only [List.length_append, List.length_cons] at this
            rw [h2] at this
            omega
          have hee : (encode (.ch c :: us)) = (c :: w') ++ t.rest := he.rest
          obtain ⟨e, hpe, hexp⟩ := hP (c :: w') pre t ⟨[], vs, by simp [h1]⟩ (hee ▸ ht) (hee ▸ he)
          obtain ⟨us', h3, h4⟩ := ih vs m t.pre hlen (fun u hu => hok' u (hvs.subset hu)) hrest (hP' vs hvs)
          refine ⟨e ++ us', ?_, ?_⟩
          · have := Rewr.repl hpe h3
            rw [h1]
            simpa using this
          · rw [Re.subFrom_some hm, he.word, hexp, h2, h4, encode_append]

theorem sub_units {D : Char → Bool} (hD : ∀ c, D c = true → isDelim c = true) {db : CharDB} {r : Re} {tpl : List Tp}
    (hs : Safe db r) (P : Str → List U → Prop) (us : List U) (hok : ∀ u ∈ us, u.Ok D)
    (hP : ∀ w pre t, (w.map U.ch) <:+: us → t ∈ r.run db ⟨pre, w ++ t.rest, []⟩ → Eats ⟨pre, w ++ t.rest, []⟩ t w →
      ∃ e, P w e ∧ expand w t.caps tpl = encode e) :
    ∃ us', Rewr P us us' ∧ r.sub db tpl (encode us) = encode us' :=
  subFrom_units hD hs P us.length us _ [] (Nat.le_refl _) hok (Nat.le_refl _) hP

theorem Rewr.mono {P Q : Str → List U → Prop} (h : ∀ w e, P w e → Q w e) {a b : List U} (hr : Rewr P a b) :
    Rewr Q a b := by
  induction hr with
  | nil => exact .nil
  | keep u _ ih => exact .keep u ih
  | repl hp _ ih => exact .repl (h _ _ hp) ih

theorem Rewr.ok {D : Char → Bool} {P : Str → List U → Prop} (h : ∀ w e, P w e → ∀ u ∈ e, u.Ok D) {a b : List U}
    (hr : Rewr P a b) (ha : ∀ u ∈ a, u.Ok D) : ∀ u ∈ b, u.Ok D := by
  induction hr with
  | nil => exact ha
  | keep u _ ih =>
    intro v hv
    rcases List.mem_cons.mp hv with rfl | hv
    · exact ha _ (by simp)
    · exact ih (fun u hu => ha u (by simp [hu])) v hv
  | repl hp _ ih =>
    intro v hv
    rcases List.mem_append.mp hv with hv | hv
    · exact h _ _ hp v hv
    · exact ih (fun u hu => ha u (by simp [hu])) v hv

/-- `str.replace` of plain text acts on the runs of plain characters. -/
theorem replaceFrom_units {D : Char → Bool} {m new : Str} {e : List U} (hm : m ≠ []) (hmD : ∀ c ∈ m, D c = false)
    (hmN : ∃ c ∈ m, isName c = false) (he : new = encode e) : ∀ (k : Nat) (us : List U) (n : Nat), us.length ≤ k →
    (∀ u ∈ us, u.Ok D) → (encode us).length ≤ n →
    ∃ us', Rewr (fun w x => w = m ∧ x = e) us us' ∧ replaceFrom m new n (encode us) = encode us' := by
  have hnilcase : ∀ n, replaceFrom m new n [] = [] := by
    intro n
    cases n with
    | zero => rfl
    | succ n =>
      unfold replaceFrom
      rw [if_neg]
      intro h
      have := (List.isPrefixOf_iff_prefix.mp h)
      exact hm (List.prefix_nil.mp this)
  have hstep : ∀ n c cs, ¬ m <+: c :: cs → replaceFrom m new (n + 1) (c :: cs) = c :: replaceFrom m new n cs := by
    intro n c cs h
    rw [replaceFrom]
    rw [if_neg (fun h' => h (List.isPrefixOf_iff_prefix.mp h'))]
  intro k
  induction k with
  | zero =>
    intro us n hk _ _
    obtain rfl : us = [] := List.length_eq_zero_iff.mp (by omega)
    exact ⟨[], .nil, hnilcase n⟩
  | succ k ih =>
    intro us n hk hok hn
    cases us with
    | nil => exact ⟨[], .nil, hnilcase n⟩
    | cons u us =>
      have hok' : ∀ u ∈ us, u.Ok D := fun v hv => hok v (by simp [hv])
      cases u with
      | bk s =>
        have hsok : BlkOk D s := hok (.bk s) (by simp)
        obtain ⟨l, rfl⟩ : ∃ l, n = s.length + l := ⟨n - s.length, by simp [U.enc] at hn; omega⟩
        have hno : ∀ x v, s = x ++ v → v ≠ [] → ¬ m <+: v ++ encode us := by
          rintro x v hxv hv ⟨r, hr⟩
          obtain ⟨c, hc, hcn⟩ := hmN
          cases x with
          | nil =>
            obtain ⟨a, mid, b, rfl, ha, -, -⟩ := hsok
            obtain ⟨d, m', rfl⟩ := List.exists_cons_of_ne_nil hm
            simp only [List.nil_append] at hxv
            subst hxv
            simp only [List.cons_append, List.cons.injEq] at hr
            rw [← hr.1, hmD d (by simp)] at ha
            cases ha
          | cons x0 x' =>
            have := inside_block hsok hxv (by simp) hv hr.symm hmD c hc
            rw [hcn] at this
            cases this
        have hskip : ∀ (v : Str), (∃ x, s = x ++ v) →
            replaceFrom m new (v.length + l) (v ++ encode us) = v ++ replaceFrom m new l (encode us) := by
          intro v
          induction v with
          | nil => intro _; simp
          | cons c v ihv =>
            rintro ⟨x, hx⟩
            have e1 : (c :: v).length + l = (v.length + l) + 1 := by simp; omega
            rw [e1, List.cons_append, hstep _ c (v ++ encode us) (hno x (c :: v) hx (by simp)), ihv ⟨x ++ [c], by simp [hx]⟩]
            rfl
        obtain ⟨us', h1, h2⟩ := ih us l (by simpa using hk) hok' (by simp [U.enc] at hn; omega)
        refine ⟨.bk s :: us', .keep _ h1, ?_⟩
        rw [encode_cons, U.enc, hskip s ⟨[], rfl⟩, h2, encode_cons, U.enc]
      | ch c =>
        obtain ⟨l, rfl⟩ : ∃ l, n = l + 1 := ⟨n - 1, by simp [U.enc] at hn; omega⟩
        by_cases hp : m <+: encode (.ch c :: us)
        · obtain ⟨r, hr⟩ := hp
          obtain ⟨vs, h1, h2⟩ := take_raw m _ _ hok hr.symm hmD
          obtain ⟨d, m', rfl⟩ := List.exists_cons_of_ne_nil hm
          simp only [List.map_cons, List.cons_append, List.cons.injEq, U.ch.injEq] at h1
          obtain ⟨rfl, h1⟩ := h1
          have hvs : vs <:+ us := ⟨_, h1.symm⟩
          have hlen : vs.length ≤ k := by
            have := hvs.length_le
            simp at hk
            omega
          have hrest : (encode vs).length ≤ l := by
            have := congrArg List.length hr
            simp only [List.length_append, List.length_cons] at this
            rw [h2] at this
            omega
          obtain ⟨us', h3, h4⟩ := ih vs l hlen (fun u hu => hok' u (hvs.subset hu)) hrest
          refine ⟨e ++ us', ?_, ?_⟩
          · have := Rewr.repl (P := fun w x => w = c :: m' ∧ x = e) ⟨rfl, rfl⟩ h3
            rw [h1]
            simpa using this
          · rw [replaceFrom.eq_def]
            simp only
            rw [if_pos (List.isPrefixOf_iff_prefix.mpr ⟨r, hr⟩), ← hr, List.drop_left, h2, h4, encode_append,
              he]
        · obtain ⟨us', h1, h2⟩ := ih us l (by simpa using hk) hok' (by simp [U.enc] at hn; omega)
          refine ⟨.ch c :: us', .keep _ h1, ?_⟩
          have e1 : encode (.ch c :: us) = c :: encode us := by simp [U.enc]
          rw [e1] at hp ⊢
          rw [hstep _ _ _ hp, h2]
          simp [U.enc]

/-- `str.replace` of a block, when it has no other occurrences in the text. -/
theorem replaceFrom_block {L new : Str} {e : List U} (hL : L ≠ []) (he : new = encode e) : ∀ (us : List U) (n : Nat),
    (∀ a u b x v, us = a ++ u :: b → u ≠ .bk L → u.enc = x ++ v → v ≠ [] → ¬ L <+: v ++ encode b) →
    (encode us).length ≤ n →
    replaceFrom L new n (encode us) = encode (us.flatMap fun u => if u = .bk L then e else [u])
  | [], n, _, _ => by
    cases n with
    | zero => rfl
    | succ n =>
      simp only [encode_nil, List.flatMap_nil]
      unfold replaceFrom
      rw [if_neg]
      intro h
      exact hL (List.prefix_nil.mp (List.isPrefixOf_iff_prefix.mp h))
  | u :: us, n, hno, hn => by
    have ih := fun n hn => replaceFrom_block hL he us n (fun a u' b x v h => hno (u :: a) u' b x v (by rw [h]; rfl)) hn
    by_cases hu : u = .bk L
    · subst hu
      obtain ⟨m, rfl⟩ : ∃ m, n = m + 1 := ⟨n - 1, by
        have := List.length_pos_of_ne_nil hL
        simp [U.enc] at hn; omega⟩
      rw [encode_cons, U.enc, replaceFrom.eq_def]
      simp only
      rw [if_pos (List.isPrefixOf_iff_prefix.mpr ⟨_, rfl⟩), List.drop_left, ih m (by
        have := List.length_pos_of_ne_nil hL
        simp [U.enc] at hn; omega), List.flatMap_cons, if_pos rfl, encode_append, he]
    · obtain ⟨l, rfl⟩ : ∃ l, n = u.enc.length + l := ⟨n - u.enc.length, by simp at hn; omega⟩
      have hskip : ∀ (v : Str), (∃ x, u.enc = x ++ v) →
          replaceFrom L new (v.length + l) (v ++ encode us) = v ++ replaceFrom L new l (encode us) := by
        intro v
        induction v with
        | nil => intro _; simp
        | cons c v ihv =>
          rintro ⟨x, hx⟩
          have e1 : (c :: v).length + l = (v.length + l) + 1 := by simp; omega
          have hnp := hno [] u us x (c :: v) rfl hu hx (by simp)
          rw [e1, replaceFrom.eq_def]
          simp only
          rw [if_neg (fun h => hnp (List.isPrefixOf_iff_prefix.mp h))]
          simp only [List.cons_append]
          rw [ihv ⟨x ++ [c], by simp [hx]⟩]
      rw [encode_cons, hskip u.enc ⟨[], rfl⟩, ih l (by simp at hn; omega), List.flatMap_cons, if_neg hu]
      simp

end Model
