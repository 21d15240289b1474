import Verif.Lemmas.Segment

/-! # The stages of the tokenizer

`Exact`: the text stands exactly for the units `us0`.  `Reach`: the text stands for units that keep the followed units of
`us0` on certain tracks. -/

namespace Model
open Py

section
variable (D : Char → Bool) (dict : Dict Str Str) (us0 : List U)

def Exact (x : Str) : Prop := ∃ us, x = encode us ∧ (∀ u ∈ us, u.Good D dict) ∧ semAll dict us = us0

def Reach (F : Track → Prop) (x : Str) : Prop :=
  ∃ us, x = encode us ∧ (∀ u ∈ us, u.Good D dict) ∧ ∀ T, F T → LeT T us0 (semAll dict us)

variable {D dict us0}

theorem Exact.reach {x : Str} (h : Exact D dict us0 x) (F : Track → Prop) : Reach D dict us0 F x := by
  obtain ⟨us, h1, h2, h3⟩ := h
  exact ⟨us, h1, h2, fun T _ => by rw [h3]; exact LeT.refl us0⟩

theorem Reach.mono {F F' : Track → Prop} (h : ∀ T, F' T → F T) {x : Str} (hr : Reach D dict us0 F x) :
    Reach D dict us0 F' x := by
  obtain ⟨us, h1, h2, h3⟩ := hr
  exact ⟨us, h1, h2, fun T hT => h3 T (h T hT)⟩

theorem infix_semAll {us w : List U} (hw : w <:+: us) : semAll dict w <:+: semAll dict us := by
  obtain ⟨a, b, rfl⟩ := hw
  exact ⟨semAll dict a, semAll dict b, by simp⟩

variable (hD : ∀ c, D c = true → isDelim c = true)
include hD

/-- A substitution whose matches are replaced by units that keep the tracks. -/
theorem Reach.sub {F : Track → Prop} {db : CharDB} {r : Re} {tpl : List Tp} (hs : Safe db r)
    (hP : ∀ us, (∀ u ∈ us, u.Good D dict) → (∀ T, F T → LeT T us0 (semAll dict us)) → ∀ w pre t,
      (w.map U.ch) <:+: us → t ∈ r.run db ⟨pre, w ++ t.rest, []⟩ → Eats ⟨pre, w ++ t.rest, []⟩ t w →
      ∃ e, ((∀ u ∈ e, u.Good D dict) ∧ ∀ T, F T → LeB T (w.map U.ch) (semAll dict e)) ∧ expand w t.caps tpl = encode e)
    {x : Str} (h : Reach D dict us0 F x) : Reach D dict us0 F (r.sub db tpl x) := by
  obtain ⟨us, rfl, h2, h3⟩ := h
  obtain ⟨us', hr, e⟩ := sub_units hD (tpl := tpl) hs
    (fun w e => (∀ u ∈ e, u.Good D dict) ∧ ∀ T, F T → LeB T (w.map U.ch) (semAll dict e)) us
    (fun u hu => (h2 u hu).ok) (hP us h2 h3)
  exact ⟨us', e, hr.all (fun w e h => h.1) h2,
    fun T hT => (h3 T hT).trans (hr.le (dict := dict) fun w e h => h.2 T hT).toT⟩

/-- A substitution whose matches are replaced by units that stand for the same text. -/
theorem Exact.sub {db : CharDB} {r : Re} {tpl : List Tp} (hs : Safe db r)
    (hP : ∀ w pre t, (w.map U.ch) <:+: us0 → t ∈ r.run db ⟨pre, w ++ t.rest, []⟩ → Eats ⟨pre, w ++ t.rest, []⟩ t w →
      ∃ e, ((∀ u ∈ e, u.Good D dict) ∧ semAll dict e = w.map U.ch) ∧ expand w t.caps tpl = encode e)
    {x : Str} (h : Exact D dict us0 x) : Exact D dict us0 (r.sub db tpl x) := by
  obtain ⟨us, rfl, h2, h3⟩ := h
  obtain ⟨us', hr, e⟩ := sub_units hD (tpl := tpl) hs
    (fun w e => (∀ u ∈ e, u.Good D dict) ∧ semAll dict e = w.map U.ch) us
    (fun u hu => (h2 u hu).ok) (fun w pre t hw => hP w pre t (by
      have := infix_semAll (dict := dict) hw
      rwa [h3, semAll_ch] at this))
  exact ⟨us', e, hr.all (fun w e h => h.1) h2, (hr.sem_eq fun w e h => h.2).trans h3⟩

variable (hD' : D '_' = true)
include hD'

/-- A statically checked rule. -/
theorem Reach.rule {F : Track → Prop} (db : CharDB) {r : Re} {ts : List TU} (h : ruleOk r ts = true) {x : Str}
    (hx : Reach D dict us0 F x) : Reach D dict us0 F (r.sub db (tplOf ts) x) := by
  obtain ⟨us, rfl, h2, h3⟩ := hx
  obtain ⟨us', e, hg, hl⟩ := rule_step hD hD' db dict h us h2
  exact ⟨us', e, hg, fun T hT => (h3 T hT).trans (hl T).toT⟩

/-- Statically checked rules. -/
theorem Reach.rules {F : Track → Prop} (db : CharDB) : ∀ (rules : List SubRule),
    (rules.all fun r => ruleOk r.1 (r.2.map toTU)) = true → ∀ {x : Str}, Reach D dict us0 F x →
    Reach D dict us0 F (subAll db rules x)
  | [], _, _, hx => hx
  | r :: rules, h, x, hx => by
    rw [List.all_cons, Bool.and_eq_true] at h
    rw [subAll_cons]
    have := Reach.rule hD hD' db h.1 hx
    rw [tplOf_toTU] at this
    exact Reach.rules db rules h.2 this

/-- The pattern is safe and its replacement stands for the match. -/
def ruleExact (r : Re) (ts : List TU) : Bool :=
  safeRe r && plainTU ts && match r.shape with
    | some is => alignE ts is
    | none => false

theorem Exact.rule (db : CharDB) {r : Re} {ts : List TU} (h : ruleExact r ts = true) {x : Str}
    (hx : Exact D dict us0 x) : Exact D dict us0 (r.sub db (tplOf ts) x) := by
  unfold ruleExact at h
  rw [Bool.and_eq_true, Bool.and_eq_true] at h
  obtain ⟨⟨h1, h2⟩, h3⟩ := h
  have hsafe := safeRe_safe db h1
  split at h3
  · rename_i is his
    refine Exact.sub hD hsafe ?_ hx
    intro w pre t _ ht he
    refine ⟨expandU t.caps ts, ⟨?_, ?_⟩, ?_⟩
    · exact expandU_good hD hD' dict he.caps_infix (hsafe _ _ _ ht he).1 h2
    · exact alignE_eq ts is w (Re.shape_run r is his _ t w ht he t.caps fun _ _ => rfl) h3
    · refine expand_tplOf w t.caps ts ?_
      intro h0
      have := List.all_eq_true.mp h2 _ h0
      simp at this
  · cases h3

/-! ### Dots that are not split off -/

/-- The four rules for dots (tokenizer.py:64-67), as units. -/
def dotRules : List (Re × List TU) := [
  (re% r"\.(?=\s[a-z])", [.un (.bk c!"_NSD_")]),
  (re% r"\.(?=\s?[,:;?!])", [.un (.bk c!"_NSD_")]),
  (re% r"\.(?=\s\d+\b)", [.un (.bk c!"_NSD_")]),
  (rei% r"\b(m|mr|mrs|ms|sr|dr|prof|rev|gov|sen|rep|lt|sgt|ave|st|ed|feat)\.(?=\s[A-Z])", [.grp 1, .un (.bk c!"_NSD_")])]

omit hD hD' in
theorem dotRules_eq : tokNoSplit = dotRules.map (fun r => (r.1, tplOf r.2)) ++ tokNoSplit.drop 4 := by decide +kernel

theorem Exact.dots (db : CharDB) {x : Str} (hx : Exact D dict us0 x) :
    Exact D dict us0 (subAll db (dotRules.map fun r => (r.1, tplOf r.2)) x) := by
  have key : ∀ rules : List (Re × List TU), (∀ r ∈ rules, ruleExact r.1 r.2 = true) → ∀ x, Exact D dict us0 x →
      Exact D dict us0 (subAll db (rules.map fun r => (r.1, tplOf r.2)) x) := by
    intro rules
    induction rules with
    | nil => intro _ x hx; exact hx
    | cons r rules ih =>
      intro h x hx
      rw [List.map_cons, subAll_cons]
      exact ih (fun r hr => h r (by simp [hr])) _ (Exact.rule hD hD' db (h r (by simp)) hx)
  exact key dotRules (by decide +kernel) x hx

/-! ### Feet and inches -/

omit hD hD' in
theorem subAll_append (db : CharDB) (a b : List SubRule) (x : Str) : subAll db (a ++ b) x = subAll db b (subAll db a x) := by
  simp [subAll]

/-- No number directly before a quote. -/
def NoFeet (db : CharDB) (us : List U) : Prop :=
  ∀ d v q, db.digit d = true → (∀ c ∈ v, db.digit c = true ∨ c = ',' ∨ c = '.') → (q = '\'' ∨ q = '"') →
    ¬ (d :: (v ++ [q])).map U.ch <:+: us

def numRe : Re := .seq (.cls ⟨false, true, [.digit]⟩) (.rep 0 true (.cls ⟨false, true, [.digit, .ch ',', .ch '.']⟩))

omit hD hD' in
theorem numCls {db : CharDB} {c : Char} (h : (Cls.mk false true [.digit, .ch ',', .ch '.']).test db c = true) :
    db.digit c = true ∨ c = ',' ∨ c = '.' := by
  simp only [Cls.test, List.any_cons, List.any_nil, Bool.or_false, bne_iff_ne, Bool.ne_false_iff, Bool.or_eq_true,
    Item.test, if_true, beq_iff_eq] at h
  rcases h with h | h | h
  · exact .inl h
  · exact .inr (.inl (foldCase_of_not_letter (by decide) (by decide) h.symm))
  · exact .inr (.inr (foldCase_of_not_letter (by decide) (by decide) h.symm))

omit hD hD' in
theorem num_run {db : CharDB} {s t : St} {w : Str} (ht : t ∈ numRe.run db s) (he : Eats s t w) :
    ∃ d v, w = d :: v ∧ db.digit d = true ∧ ∀ c ∈ v, db.digit c = true ∨ c = ',' ∨ c = '.' := by
  obtain ⟨u, w1, w2, hu, ht', h1, h2⟩ := Re.run_seq ht
  obtain ⟨c, cs, hs, hk, rfl⟩ := Re.run_cls hu
  have e1 : Eats s ⟨c :: s.pre, cs, s.caps⟩ [c] := ⟨by simpa using hs, by simp, [], rfl, by simp⟩
  obtain rfl := h1.uniq e1
  refine ⟨c, w2, he.uniq (h1.trans h2), by simpa [Cls.test, Item.test] using hk, ?_⟩
  refine Re.run_all _ (fun r => r == .rep 0 true (.cls ⟨false, true, [.digit, .ch ',', .ch '.']⟩) ||
    r == .cls ⟨false, true, [.digit, .ch ',', .ch '.']⟩) ?_ ?_ ?_ ?_ ?_ _ (by decide) _ _ _ ht' h2
  · intro k hk c hc
    simp only [Bool.or_eq_true, beq_iff_eq, reduceCtorEq, Re.cls.injEq, false_or] at hk
    subst hk
    exact numCls hc
  · intro a b h; simp at h
  · intro a b h; simp at h
  · intro n g a h
    simp at h
    obtain ⟨-, -, rfl⟩ := h
    simp
  · intro n a h; simp at h

omit hD hD' in
/-- A match of a rule for feet or inches begins with a number and a quote. -/
theorem feet_run {db : CharDB} {tail : Re} {q : Char}
    (htail : ∀ s t w, t ∈ tail.run db s → Eats s t w → ∃ w', w = q :: w') {s t : St} {w : Str}
    (ht : t ∈ (Re.seq (.behind false (.cls ⟨false, true, [.space]⟩)) (.seq (.group 1 numRe) tail)).run db s)
    (he : Eats s t w) : ∃ d v w', w = d :: (v ++ [q]) ++ w' ∧ db.digit d = true ∧
      ∀ c ∈ v, db.digit c = true ∨ c = ',' ∨ c = '.' := by
  obtain ⟨u, w1, w2, hu, ht', h1, h2⟩ := Re.run_seq ht
  obtain rfl := Re.run_zero (by trivial) hu
  obtain rfl := h1.uniq (Eats.refl u)
  obtain ⟨x, w3, w4, hx, ht'', h3, h4⟩ := Re.run_seq ht'
  simp only [Re.run, List.mem_map] at hx
  obtain ⟨x', hx', rfl⟩ := hx
  obtain ⟨w', hw'⟩ := Re.run_eats _ _ _ hx'
  have e3 : w3 = w' := by
    have e1 := h3.word
    simp only at e1
    rw [← e1, hw'.word]
  subst e3
  obtain ⟨d, v, rfl, hd, hv⟩ := num_run hx' hw'
  obtain ⟨w5, rfl⟩ := htail _ _ _ ht'' h4
  exact ⟨d, v, w5, by rw [he.uniq (h1.trans (h3.trans h4))]; simp, hd, hv⟩

omit hD hD' in
theorem quote_run {db : CharDB} {q : Char} (hq : q = '\'' ∨ q = '"') {s t : St} {w : Str}
    (ht : t ∈ (Re.cls ⟨false, true, [.ch q]⟩).run db s) (he : Eats s t w) : w = [q] := by
  obtain ⟨c, cs, hs, hk, rfl⟩ := Re.run_cls ht
  have e1 : Eats s ⟨c :: s.pre, cs, s.caps⟩ [c] := ⟨by simpa using hs, by simp, [], rfl, by simp⟩
  rw [he.uniq e1]
  simp only [Cls.test, List.any_cons, List.any_nil, Bool.or_false, bne_iff_ne, Bool.ne_false_iff,
    Item.test, if_true, beq_iff_eq] at hk
  rw [foldCase_of_not_letter (c := q) (d := c) (by rcases hq with rfl | rfl <;> decide) (by rcases hq with rfl | rfl <;> decide) (by
    rw [← hk]; rcases hq with rfl | rfl <;> decide)]

/-- The three rules for feet and inches (tokenizer.py:69-71). -/
def feetRules : List SubRule := (tokNoSplit.drop 4).take 3

omit hD hD' in
theorem feetRules_head {db : CharDB} {r : SubRule} (hr : r ∈ feetRules) {s t : St} {w : Str} (ht : t ∈ r.1.run db s)
    (he : Eats s t w) : ∃ d v q w', w = d :: (v ++ [q]) ++ w' ∧ db.digit d = true ∧
      (∀ c ∈ v, db.digit c = true ∨ c = ',' ∨ c = '.') ∧ (q = '\'' ∨ q = '"') := by
  have hr' : r.1 ∈ feetRules.map Prod.fst := List.mem_map_of_mem hr
  have e : feetRules.map Prod.fst = [
      .seq (.behind false (.cls ⟨false, true, [.space]⟩)) (.seq (.group 1 numRe) (.seq (.cls ⟨false, true, [.ch '\'']⟩)
        (.seq (.group 2 numRe) (.cls ⟨false, true, [.ch '"']⟩)))),
      .seq (.behind false (.cls ⟨false, true, [.space]⟩)) (.seq (.group 1 numRe) (.cls ⟨false, true, [.ch '\'']⟩)),
      .seq (.behind false (.cls ⟨false, true, [.space]⟩)) (.seq (.group 1 numRe) (.cls ⟨false, true, [.ch '"']⟩))] := by
    decide +kernel
  rw [e] at hr'
  simp only [List.mem_cons, List.not_mem_nil, or_false] at hr'
  rcases hr' with hr' | hr' | hr' <;> rw [hr'] at ht
  · obtain ⟨d, v, w', h1, h2, h3⟩ := feet_run (q := '\'') (by
      intro s t w ht he
      obtain ⟨u, w1, w2, hu, -, h1, h2⟩ := Re.run_seq ht
      obtain rfl := quote_run (.inl rfl) hu h1
      exact ⟨w2, he.uniq (h1.trans h2)⟩) ht he
    exact ⟨d, v, _, w', h1, h2, h3, .inl rfl⟩
  · obtain ⟨d, v, w', h1, h2, h3⟩ := feet_run (q := '\'') (fun s t w ht he => ⟨[], quote_run (.inl rfl) ht he⟩) ht he
    exact ⟨d, v, _, w', h1, h2, h3, .inl rfl⟩
  · obtain ⟨d, v, w', h1, h2, h3⟩ := feet_run (q := '"') (fun s t w ht he => ⟨[], quote_run (.inr rfl) ht he⟩) ht he
    exact ⟨d, v, _, w', h1, h2, h3, .inr rfl⟩

omit hD hD' in
theorem feetRules_safe : ∀ r ∈ feetRules, safeRe r.1 = true ∧ plainTU (r.2.map toTU) = true := by decide +kernel

omit hD' in
theorem Exact.feet (db : CharDB) (hf : NoFeet db us0) : ∀ (rules : List SubRule), (∀ r ∈ rules, r ∈ feetRules) →
    ∀ x, Exact D dict us0 x → Exact D dict us0 (subAll db rules x)
  | [], _, _, hx => hx
  | r :: rules, h, x, hx => by
    rw [subAll_cons]
    refine Exact.feet db hf rules (fun r hr => h r (by simp [hr])) _ (Exact.sub hD
      (safeRe_safe db (feetRules_safe r (h r (by simp))).1) ?_ hx)
    intro w pre t hw ht he
    obtain ⟨d, v, q, w', rfl, hd, hv, hq⟩ := feetRules_head (h r (by simp)) ht he
    refine absurd (List.IsInfix.trans ?_ hw) (hf d v q hd hv hq)
    rw [List.map_append]
    exact (List.prefix_append _ _).isInfix

/-- The tracks that feet and inches do not disturb. -/
def LB (T : Track) : Prop := T = trLetters ∨ T = trBlocks

omit hD hD' in
theorem track_e_last (T : Track) (l : List U) (u : U) (x : Bool) : T.e x (l ++ [u]) = T.q u := by
  rw [Track.e_append]
  rfl

omit hD hD' in
theorem track_e_ne {l : List U} (T : Track) (h : l ≠ []) : ∃ u ∈ l, l.getLast? = some u ∧ ∀ x, T.e x l = T.q u := by
  obtain ⟨l', u, rfl⟩ := (List.eq_nil_or_concat l).resolve_left h
  exact ⟨u, by simp, by simp, fun x => by rw [List.concat_eq_append]; exact track_e_last T l' u x⟩

omit hD hD' in
/-- Characters become other characters, none of them followed. -/
theorem letters_le {w : Str} {e : List U} (hne : e ≠ []) (hw : ∀ c ∈ w, c ∉ nameLetters)
    (he : ∀ u ∈ e, ∃ c, u = .ch c ∧ c ∉ nameLetters) : LeB trLetters (w.map U.ch) e := by
  have hp : ∀ c, c ∉ nameLetters → trLetters.p (.ch c) = false := by
    intro c hc
    show nameLetters.contains c = false
    rw [← Bool.not_eq_true, List.contains_iff_mem]
    exact hc
  have hg : ∀ (l : List U) x y, (∀ u ∈ l, ∃ c, u = .ch c ∧ c ∉ nameLetters) → trLetters.g x l y = [] := by
    intro l
    induction l with
    | nil => intros; rfl
    | cons u l ih =>
      intro x y h
      obtain ⟨c, rfl, hc⟩ := h u (by simp)
      rw [Track.g, hp c hc]
      exact ih _ _ fun u hu => h u (by simp [hu])
  have hq : ∀ c, c ∉ nameLetters → trLetters.q (.ch c) = true := fun c hc => by
    show (!trLetters.p (.ch c)) = true
    rw [hp c hc]
    rfl
  intro x x' y y' hx hy
  refine ⟨?_, fun _ => ?_, fun _ => ?_⟩
  · rw [hg _ _ _ (by
      intro u hu
      obtain ⟨d, hd, rfl⟩ := List.mem_map.mp hu
      exact ⟨d, rfl, hw d hd⟩), hg _ _ _ he]
    exact .nil
  · obtain ⟨v, e', rfl⟩ := List.exists_cons_of_ne_nil hne
    obtain ⟨d, rfl, hd⟩ := he v (by simp)
    exact hq d hd
  · obtain ⟨u, hu, -, h⟩ := track_e_ne trLetters hne
    obtain ⟨d, rfl, hd⟩ := he u hu
    rw [h]
    exact hq d hd

omit hD hD' in
theorem blocks_g {l : List U} (h : ∀ u ∈ l, ∃ c, u = .ch c) : ∀ x y, trBlocks.g x l y = [] := by
  induction l with
  | nil => intros; rfl
  | cons u l ih =>
    intro x y
    obtain ⟨c, rfl⟩ := h u (by simp)
    show trBlocks.g _ l y = []
    exact ih (fun u hu => h u (by simp [hu])) _ _

omit hD hD' in
/-- Characters become other characters; white space at an edge remains. -/
theorem blocks_le {w : Str} {e : List U} (hne : e ≠ []) (he : ∀ u ∈ e, ∃ c, u = .ch c)
    (hfirst : ∀ c, w.head? = some c → isSpace c = true → trBlocks.s e true = true)
    (hlast : ∀ c, w.getLast? = some c → isSpace c = true → trBlocks.e true e = true)
    (hwne : w ≠ []) : LeB trBlocks (w.map U.ch) e := by
  obtain ⟨v, e', rfl⟩ := List.exists_cons_of_ne_nil hne
  obtain ⟨c, w', rfl⟩ := List.exists_cons_of_ne_nil hwne
  intro x x' y y' hx hy
  refine ⟨?_, fun h => ?_, fun h => ?_⟩
  · rw [blocks_g (by
      intro u hu
      obtain ⟨d, hd, rfl⟩ := List.mem_map.mp hu
      exact ⟨d, rfl⟩), blocks_g he]
    exact .nil
  · exact hfirst c rfl h
  · obtain ⟨u, hu, hl, h2⟩ := track_e_ne (l := (c :: w').map U.ch) trBlocks (by simp)
    rw [List.getLast?_map, Option.map_eq_some_iff] at hl
    obtain ⟨d, hl, rfl⟩ := hl
    rw [h2] at h
    exact hlast d hl h

omit hD hD' in
theorem LB_le {T : Track} (hT : LB T) {w : Str} {e : List U} (hne : e ≠ []) (hw : ∀ c ∈ w, c ∉ nameLetters)
    (he : ∀ u ∈ e, ∃ c, u = .ch c ∧ c ∉ nameLetters) (hfirst : ∀ c, w.head? = some c → isSpace c = true →
      trBlocks.s e true = true) (hlast : ∀ c, w.getLast? = some c → isSpace c = true → trBlocks.e true e = true)
    (hwne : w ≠ []) : LeB T (w.map U.ch) e := by
  rcases hT with rfl | rfl
  · exact letters_le hne hw he
  · exact blocks_le hne (fun u hu => ⟨_, (he u hu).choose_spec.1⟩) hfirst hlast hwne

omit hD hD' in
theorem digit_not_letter {db : CharDB} {c : Char} (h : db.digit c = true) : c ∉ nameLetters ∧ isSpace c = false := by
  refine ⟨fun hc => ?_, ?_⟩
  · have : c.toNat < 128 ∧ c.isDigit = false := by
      clear h
      revert c
      decide
    rw [db.digit_ascii c this.1, this.2] at h
    cases h
  · rcases hs : isSpace c with _ | _
    · rfl
    · have := db.word_space c hs
      rw [db.digit_word c h] at this
      cases this

/-- Characters of a match of a rule for feet or inches. -/
def feetCls (r : Re) : Bool :=
  match r with
  | .cls k => decide (k = ⟨false, true, [.digit]⟩ ∨ k = ⟨false, true, [.digit, .ch ',', .ch '.']⟩ ∨
      k = ⟨false, true, [.ch '\'']⟩ ∨ k = ⟨false, true, [.ch '"']⟩)
  | .seq a b => feetCls a && feetCls b
  | .alt a b => feetCls a && feetCls b
  | .rep _ _ a => feetCls a
  | .group _ a => feetCls a
  | _ => true

omit hD hD' in
theorem feetRules_chars {db : CharDB} {r : SubRule} (hr : r ∈ feetRules) {s t : St} {w : Str} (ht : t ∈ r.1.run db s)
    (he : Eats s t w) : ∀ c ∈ w, c ∉ nameLetters ∧ isSpace c = false := by
  have hc : ∀ r ∈ feetRules, feetCls r.1 = true := by decide +kernel
  refine Re.run_all _ feetCls ?_ ?_ ?_ ?_ ?_ _ (hc r hr) _ _ _ ht he
  · intro k hk c hc
    simp only [feetCls, decide_eq_true_eq] at hk
    have hq : ∀ q, (q = '\'' ∨ q = '"') → (Cls.mk false true [.ch q]).test db c = true →
        c ∉ nameLetters ∧ isSpace c = false := by
      intro q hq h
      simp only [Cls.test, List.any_cons, List.any_nil, Bool.or_false, bne_iff_ne, Bool.ne_false_iff,
        Item.test, if_true, beq_iff_eq] at h
      rw [foldCase_of_not_letter (c := q) (d := c) (by rcases hq with rfl | rfl <;> decide)
        (by rcases hq with rfl | rfl <;> decide) (by rw [← h]; rcases hq with rfl | rfl <;> decide)]
      rcases hq with rfl | rfl <;> decide
    rcases hk with rfl | rfl | rfl | rfl
    · exact digit_not_letter (by simpa [Cls.test, Item.test] using hc)
    · rcases numCls hc with h | rfl | rfl
      · exact digit_not_letter h
      · decide
      · decide
    · exact hq _ (.inl rfl) hc
    · exact hq _ (.inr rfl) hc
  · intro a b h; simpa [feetCls] using h
  · intro a b h; simpa [feetCls] using h
  · intro n g a h; simpa [feetCls] using h
  · intro n a h; simpa [feetCls] using h

/-- Replacement items other than letters of names. -/
def noLetter : TU → Bool
  | .un (.ch c) => !nameLetters.contains c
  | .un (.bk _) => false
  | .grp _ => true

def isLit : Tp → Bool
  | .lit _ => true
  | .ref _ => false

theorem Reach.feet (db : CharDB) : ∀ (rules : List SubRule), (∀ r ∈ rules, r ∈ feetRules) →
    ∀ x, Reach D dict us0 LB x → Reach D dict us0 LB (subAll db rules x)
  | [], _, _, hx => hx
  | r :: rules, h, x, hx => by
    have hr := h r (by simp)
    rw [subAll_cons]
    have hsafe := safeRe_safe db (feetRules_safe r hr).1
    refine Reach.feet db rules (fun r hr => h r (by simp [hr])) _ (Reach.sub hD hsafe ?_ hx)
    intro us _ _ w pre t _ ht he
    have hch := feetRules_chars hr ht he
    have hnot : ∀ r ∈ feetRules, (r.2.map toTU).all noLetter = true ∧ r.2.any isLit = true := by
      decide +kernel
    have hE : ∀ ts : List TU, ts.all noLetter = true → ∀ u ∈ expandU t.caps ts, ∃ c, u = .ch c ∧ c ∉ nameLetters := by
      intro ts
      induction ts with
      | nil => simp [expandU]
      | cons t' ts ih =>
        intro h u hu
        rw [List.all_cons, Bool.and_eq_true] at h
        cases t' with
        | grp n =>
          rw [expandU, List.mem_append, List.mem_map] at hu
          rcases hu with ⟨c, hcc, rfl⟩ | hu
          · obtain ⟨p, hp, hcp⟩ := capText_mem hcc
            exact ⟨c, rfl, (hch c ((he.caps_infix p hp).subset hcp)).1⟩
          · exact ih h.2 u hu
        | un v =>
          rw [expandU, List.mem_cons] at hu
          rcases hu with rfl | hu
          · cases u with
            | ch c => exact ⟨c, rfl, by simpa [noLetter] using h.1⟩
            | bk s => simp [noLetter] at h
          · exact ih h.2 u hu
    have hEne : ∀ ts : List TU, (∃ u, TU.un u ∈ ts) → expandU t.caps ts ≠ [] := by
      intro ts
      induction ts with
      | nil => simp
      | cons t' ts ih =>
        rintro ⟨u, hu⟩
        cases t' with
        | grp n =>
          rw [expandU]
          intro h0
          exact ih ⟨u, by simpa using hu⟩ (List.append_eq_nil_iff.mp h0).2
        | un v => simp [expandU]
    have hsem : semAll dict (expandU t.caps (r.2.map toTU)) = expandU t.caps (r.2.map toTU) := by
      have : ∀ l : List U, (∀ u ∈ l, ∃ c, u = .ch c ∧ c ∉ nameLetters) → semAll dict l = l := by
        intro l
        induction l with
        | nil => intros; rfl
        | cons u l ih =>
          intro h
          obtain ⟨c, rfl, -⟩ := h u (by simp)
          rw [semAll_cons, ih fun u hu => h u (by simp [hu])]
          rfl
      exact this _ (hE _ (hnot r hr).1)
    have hwne : w ≠ [] := by
      obtain ⟨c, hc, -⟩ := (hsafe _ _ _ ht he).2
      exact List.ne_nil_of_mem hc
    refine ⟨expandU t.caps (r.2.map toTU), ⟨?_, ?_⟩, ?_⟩
    · exact expandU_good hD hD' dict he.caps_infix (hsafe _ _ _ ht he).1 (feetRules_safe r hr).2
    · intro T hT
      rw [hsem]
      refine LB_le hT (hEne _ ?_) (fun c hc => (hch c hc).1) (hE _ (hnot r hr).1) ?_ ?_ hwne
      · obtain ⟨tp, hc, hl⟩ := List.any_eq_true.mp (hnot r hr).2
        cases tp with
        | ref n => cases hl
        | lit c => exact ⟨.ch c, List.mem_map.mpr ⟨_, hc, rfl⟩⟩
      · intro c hc hs
        rw [(hch c (List.mem_of_mem_head? hc)).2] at hs
        cases hs
      · intro c hc hs
        rw [(hch c (List.mem_of_mem_getLast? hc)).2] at hs
        cases hs
    · have := expand_tplOf w t.caps (r.2.map toTU) (by
        intro h0
        have := List.all_eq_true.mp (feetRules_safe r hr).2 _ h0
        simp at this)
      rw [tplOf_toTU] at this
      exact this

end

end Model
