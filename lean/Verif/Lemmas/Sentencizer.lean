import Verif.Lemmas.PlainWords

/-! Sentence splitting and the cutting out of blocks. -/

namespace Model
open Py

/-! ### Sentence enders -/

theorem run_cls_cons {db : CharDB} {k : Cls} (pre : Str) (c : Char) (cs : Str) (caps : List (Nat × Str)) :
    (Re.cls k).run db ⟨pre, c :: cs, caps⟩ = if k.test db c then [⟨c :: pre, cs, caps⟩] else [] := rfl

/-- Members of a repetition of a class. -/
theorem mem_many_cls {db : CharDB} {k : Cls} {g : Bool} : ∀ (n : Nat) (s t : St), t ∈ many ((Re.cls k).run db) g n s →
    ∃ w, s.rest = w ++ t.rest ∧ t.pre = w.reverse ++ s.pre ∧ ∀ c ∈ w, k.test db c = true
  | 0, s, t, h => by
    simp only [many, List.mem_singleton] at h
    subst h
    exact ⟨[], rfl, rfl, by simp⟩
  | n + 1, s, t, h => by
    rcases mem_many h with rfl | ⟨u, hu, -, h⟩
    · exact ⟨[], rfl, rfl, by simp⟩
    · obtain ⟨c, cs, h1, h2, rfl⟩ := Re.run_cls hu
      obtain ⟨w, h3, h4, h5⟩ := mem_many_cls n _ t h
      refine ⟨c :: w, by rw [h1]; exact congrArg _ h3, by rw [h4]; simp, ?_⟩
      intro d hd
      rcases List.mem_cons.mp hd with rfl | hd
      · exact h2
      · exact h5 d hd

/-- A repetition of a class can consume any run of its characters. -/
theorem many_cls_mem {db : CharDB} {k : Cls} {g : Bool} : ∀ (w pre rest : Str) (caps : List (Nat × Str)) (n : Nat),
    (∀ c ∈ w, k.test db c = true) → w.length ≤ n →
    (⟨w.reverse ++ pre, rest, caps⟩ : St) ∈ many ((Re.cls k).run db) g n ⟨pre, w ++ rest, caps⟩
  | [], pre, rest, caps, n, _, _ => by
    cases n with
    | zero => simp [many]
    | succ n => cases g <;> simp [many]
  | c :: w, pre, rest, caps, 0, _, hn => by simp at hn
  | c :: w, pre, rest, caps, n + 1, h, hn => by
    have ih := many_cls_mem (db := db) (k := k) (g := g) w (c :: pre) rest caps n (fun d hd => h d (by simp [hd]))
      (by simpa using hn)
    have hk := h c (by simp)
    have hmem : (⟨(c :: w).reverse ++ pre, rest, caps⟩ : St) ∈
        (((Re.cls k).run db ⟨pre, (c :: w) ++ rest, caps⟩).filter
          fun t => t.rest.length < ((c :: w) ++ rest).length).flatMap (many ((Re.cls k).run db) g n) := by
      rw [List.cons_append, run_cls_cons, if_pos hk]
      simp only [List.length_cons, List.mem_flatMap, List.mem_filter, List.mem_singleton, decide_eq_true_eq]
      exact ⟨_, ⟨rfl, by simp⟩, by simpa using ih⟩
    unfold many
    cases g
    · simp only [Bool.false_eq_true, if_false]
      exact List.mem_cons_of_mem _ hmem
    · simp only [if_true]
      exact List.mem_append_left _ hmem

theorem test_lits {db : CharDB} (l : List Char) (c : Char) :
    (Cls.mk false false (l.map Item.ch)).test db c = true ↔ c ∈ l := by
  unfold Cls.test
  simp only [bne_iff_ne, ne_eq, Bool.not_eq_false, List.any_eq_true, List.mem_map]
  constructor
  · rintro ⟨i, ⟨d, hd, rfl⟩, ht⟩
    simp only [Item.test, Bool.false_eq_true, if_false, beq_iff_eq] at ht
    exact ht ▸ hd
  · intro h
    refine ⟨_, ⟨c, h, rfl⟩, ?_⟩
    simp only [Item.test, Bool.false_eq_true, if_false, beq_self_eq_true]

theorem first_occurrence {α} [DecidableEq α] {a : α} {l : List α} (h : a ∈ l) : ∃ x y, l = x ++ a :: y ∧ a ∉ x := by
  induction l with
  | nil => simp at h
  | cons b l ih =>
    by_cases hb : b = a
    · exact ⟨[], l, by simp [hb], by simp⟩
    · obtain ⟨x, y, h1, h2⟩ := ih (by
        rcases List.mem_cons.mp h with h | h
        · exact absurd h.symm hb
        · exact h)
      refine ⟨b :: x, y, by rw [h1]; rfl, ?_⟩
      intro hc
      rcases List.mem_cons.mp hc with hc | hc
      · exact hb hc.symm
      · exact h2 hc

theorem isEnder_iff (db : CharDB) (t : Str) : isEnder db t = true ↔ Spec.Ender t := by
  have hr : reSentEnders = .group 1 (.alt (.rep 1 true (.cls ⟨false, false, [.ch '.', .ch '?', .ch '!', .ch ':']⟩))
      (.cls ⟨false, false, [.ch '¶']⟩)) := rfl
  have hk : ∀ c, (Cls.mk false false [.ch '.', .ch '?', .ch '!', .ch ':']).test db c = true ↔
      c ∈ ['.', '?', '!', ':'] := test_lits ['.', '?', '!', ':']
  have hk2 : ∀ c, (Cls.mk false false [.ch '¶']).test db c = true ↔ c = '¶' := by
    intro c
    rw [show [Item.ch '¶'] = ['¶'].map Item.ch from rfl, test_lits, List.mem_singleton]
  unfold isEnder Re.fullmatch Spec.Ender
  rw [List.any_eq_true, hr]
  constructor
  · rintro ⟨s, hs, he⟩
    rw [Re.run, List.mem_map] at hs
    obtain ⟨u, hu, rfl⟩ := hs
    have he : u.rest = [] := by simpa using he
    rw [Re.run, List.mem_append] at hu
    rcases hu with hu | hu
    · left
      rw [Re.run, List.mem_flatMap] at hu
      obtain ⟨v, hv, hu⟩ := hu
      simp only [times, List.flatMap_singleton', List.mem_flatMap, List.mem_singleton] at hv
      obtain ⟨c, cs, h1, h2, rfl⟩ := Re.run_cls hv
      obtain ⟨w, h3, -, h5⟩ := mem_many_cls _ _ _ hu
      simp only at h1 h3
      rw [he, List.append_nil] at h3
      subst h3
      refine ⟨by rw [h1]; simp, ?_⟩
      intro d hd
      rw [h1] at hd
      rcases List.mem_cons.mp hd with rfl | hd
      · exact (hk _).mp h2
      · exact (hk _).mp (h5 d hd)
    · right
      obtain ⟨c, cs, h1, h2, rfl⟩ := Re.run_cls hu
      simp only at h1 he
      rw [h1, he, (hk2 c).mp h2]
  · rintro (⟨h1, h2⟩ | rfl)
    · obtain ⟨c, w, rfl⟩ := List.exists_cons_of_ne_nil h1
      have hm := many_cls_mem (db := db) (k := ⟨false, false, [.ch '.', .ch '?', .ch '!', .ch ':']⟩) (g := true) w [c] [] []
        w.length (fun d hd => (hk d).mpr (h2 d (by simp [hd]))) (Nat.le_refl _)
      refine ⟨⟨w.reverse ++ [c], [], [(1, (c :: w).take ((c :: w).length - 0))]⟩, ?_, rfl⟩
      rw [Re.run, List.mem_map]
      refine ⟨⟨w.reverse ++ [c], [], []⟩, ?_, rfl⟩
      rw [Re.run, List.mem_append]
      left
      rw [Re.run, List.mem_flatMap]
      refine ⟨⟨[c], w, []⟩, ?_, by simpa using hm⟩
      simp only [times, run_cls_cons, if_pos ((hk c).mpr (h2 c (by simp)))]
      simp
    · refine ⟨⟨['¶'], [], [(1, ['¶'])]⟩, ?_, rfl⟩
      rw [Re.run, List.mem_map]
      refine ⟨⟨['¶'], [], []⟩, ?_, rfl⟩
      rw [Re.run, List.mem_append]
      right
      rw [run_cls_cons, if_pos ((hk2 _).mpr rfl)]
      simp

/-! ### Splitting at enders -/

theorem splitSentencesAux_spec (db : CharDB) : ∀ (ts cur : List Str), (∀ t ∈ cur, ¬ Spec.Ender t) →
    ∃ (parts : List (List Str × Str)) (last : List Str),
      cur ++ ts = parts.flatMap (fun p => p.1 ++ [p.2]) ++ last ∧
      (∀ p ∈ parts, Spec.Ender p.2 ∧ ∀ t ∈ p.1, ¬ Spec.Ender t) ∧ (∀ t ∈ last, ¬ Spec.Ender t) ∧
      splitSentencesAux db ts cur =
        parts.map (fun p => if p.2 = c!"¶" then p.1 else p.1 ++ [p.2]) ++ (if last = [] then [] else [last])
  | [], cur, hc => by
    refine ⟨[], cur, by simp, by simp, hc, ?_⟩
    unfold splitSentencesAux
    cases cur <;> simp
  | t :: ts, cur, hc => by
    unfold splitSentencesAux
    by_cases he : isEnder db t = true
    · obtain ⟨parts, last, h1, h2, h3, h4⟩ := splitSentencesAux_spec db ts [] (by simp)
      refine ⟨(cur, t) :: parts, last, ?_, ?_, h3, ?_⟩
      · rw [List.nil_append] at h1
        rw [h1]
        simp
      · intro p hp
        rcases List.mem_cons.mp hp with rfl | hp
        · exact ⟨(isEnder_iff db t).mp he, hc⟩
        · exact h2 p hp
      · rw [if_pos he, h4]
        by_cases ht : t = c!"¶" <;> simp [ht]
    · have hne : ¬ Spec.Ender t := fun h => he ((isEnder_iff db t).mpr h)
      obtain ⟨parts, last, h1, h2, h3, h4⟩ := splitSentencesAux_spec db ts (cur ++ [t]) (by
        intro u hu
        rcases List.mem_append.mp hu with hu | hu
        · exact hc u hu
        · rw [List.mem_singleton] at hu
          exact hu ▸ hne)
      refine ⟨parts, last, ?_, h2, h3, ?_⟩
      · rw [← h1]; simp
      · rw [if_neg he, h4]

/-! ### Blocks -/

/-- `.*?` followed by a closing character, on a text with that character before any newline. -/
theorem lazy_until {db : CharDB} {cl : Char} (hcl : cl ≠ '\n') : ∀ (x pre rest : Str) (caps : List (Nat × Str)) (n : Nat),
    cl ∉ x → '\n' ∉ x → x.length ≤ n →
    ((many ((Re.cls ⟨false, false, [.dot]⟩).run db) false n ⟨pre, x ++ cl :: rest, caps⟩).flatMap
      ((Re.cls ⟨false, false, [.ch cl]⟩).run db)).head? = some ⟨cl :: (x.reverse ++ pre), rest, caps⟩
  | [], pre, rest, caps, n, _, _, _ => by
    have hk : (Cls.mk false false [.ch cl]).test db cl = true := by simp [Cls.test, Item.test]
    cases n with
    | zero => simp [many, run_cls_cons, hk]
    | succ n => simp [many, run_cls_cons, hk]
  | c :: x, pre, rest, caps, 0, _, _, hn => by simp at hn
  | c :: x, pre, rest, caps, n + 1, h1, h2, hn => by
    have hc : c ≠ cl := fun h => h1 (by simp [h])
    have hnl : c ≠ '\n' := fun h => h2 (by simp [h])
    have hk : (Cls.mk false false [.ch cl]).test db c = false := by simp [Cls.test, Item.test, Ne.symm hc]
    have hd : (Cls.mk false false [.dot]).test db c = true := by simp [Cls.test, Item.test, hnl]
    have ih := lazy_until (db := db) hcl x (c :: pre) rest caps n (fun h => h1 (by simp [h])) (fun h => h2 (by simp [h]))
      (by simpa using hn)
    unfold many
    simp only [Bool.false_eq_true, if_false, List.flatMap_cons, List.cons_append]
    rw [run_cls_cons, hk]
    simp only [Bool.false_eq_true, if_false, List.nil_append]
    rw [run_cls_cons, hd]
    simp only [if_true]
    have hf : List.filter (fun t : St => decide (t.rest.length < (c :: (x ++ cl :: rest)).length))
        [(⟨c :: pre, x ++ cl :: rest, caps⟩ : St)] = [⟨c :: pre, x ++ cl :: rest, caps⟩] := by simp
    rw [hf]
    simp only [List.flatMap_cons, List.flatMap_nil, List.append_nil]
    rw [ih]
    simp

/-- Shape of a match of `op.*?cl`. -/
theorem block_run {db : CharDB} {op cl : Char} {s t : St}
    (h : t ∈ (Re.seq (.cls ⟨false, false, [.ch op]⟩) (.seq (.rep 0 false (.cls ⟨false, false, [.dot]⟩))
      (.cls ⟨false, false, [.ch cl]⟩))).run db s) :
    ∃ x, s.rest = op :: (x ++ cl :: t.rest) := by
  rw [Re.run, List.mem_flatMap] at h
  obtain ⟨u, hu, h⟩ := h
  obtain ⟨c, cs, h1, h2, rfl⟩ := Re.run_cls hu
  rw [Re.run, List.mem_flatMap] at h
  obtain ⟨v, hv, h⟩ := h
  obtain ⟨d, ds, h3, h4, rfl⟩ := Re.run_cls h
  rw [Re.run, List.mem_flatMap] at hv
  obtain ⟨w, hw, hv⟩ := hv
  simp only [times, List.mem_singleton] at hw
  subst hw
  obtain ⟨x, h5, -, -⟩ := mem_many_cls _ _ _ hv
  simp only at h5 h3
  have e1 : c = op := List.mem_singleton.mp ((test_lits [op] c).mp h2)
  have e2 : d = cl := List.mem_singleton.mp ((test_lits [cl] d).mp h4)
  subst e1 e2
  exact ⟨x, by rw [h1, h5, h3]⟩

/-- The match of `op.*?cl` at a position. -/
theorem block_matchAt {db : CharDB} {op cl : Char} (hcl : cl ≠ '\n') {pre x rest : Str} (h1 : cl ∉ x)
    (h2 : '\n' ∉ x) : ∃ caps,
    (Re.seq (.cls ⟨false, false, [.ch op]⟩) (.seq (.rep 0 false (.cls ⟨false, false, [.dot]⟩))
      (.cls ⟨false, false, [.ch cl]⟩))).matchAt db pre (op :: (x ++ cl :: rest)) =
      some ⟨cl :: (x.reverse ++ op :: pre), rest, caps⟩ := by
  have hk : (Cls.mk false false [.ch op]).test db op = true := by simp [Cls.test, Item.test]
  refine ⟨[], ?_⟩
  have key := lazy_until (db := db) hcl x (op :: pre) rest [] (x ++ cl :: rest).length h1 h2 (by simp)
  unfold Re.matchAt
  have e : (Re.seq (.cls ⟨false, false, [.ch op]⟩) (.seq (.rep 0 false (.cls ⟨false, false, [.dot]⟩))
      (.cls ⟨false, false, [.ch cl]⟩))).run db ⟨pre, op :: (x ++ cl :: rest), []⟩ =
      (many ((Re.cls ⟨false, false, [.dot]⟩).run db) false (x ++ cl :: rest).length ⟨op :: pre, x ++ cl :: rest, []⟩).flatMap
      ((Re.cls ⟨false, false, [.ch cl]⟩).run db) := by
    rw [Re.run, run_cls_cons, if_pos hk]
    simp only [List.flatMap_cons, List.flatMap_nil, List.append_nil]
    rw [Re.run, Re.run]
    simp only [times, List.flatMap_cons, List.flatMap_nil, List.append_nil]
  rw [e, key]
  simp only
  rw [if_pos (by simp; omega)]

/-- The cut of a text at the matches of `op.*?cl`. -/
theorem block_cut {db : CharDB} {r : Re} {op cl : Char} (hr : r = .seq (.cls ⟨false, false, [.ch op]⟩)
      (.seq (.rep 0 false (.cls ⟨false, false, [.dot]⟩)) (.cls ⟨false, false, [.ch cl]⟩))) (hcl : cl ≠ '\n') :
    ∀ (n : Nat) (pre rest cur : Str), '\n' ∉ rest → rest.length ≤ n → op ∉ cur →
    ∃ (ms : List (Str × Str)) (last : Str),
      r.cutFrom db n pre rest cur = (ms.map (fun m => (m.1, op :: (m.2 ++ [cl]))), last) ∧
      cur.reverse ++ rest = Spec.assembled op cl ms last ∧
      (∀ m ∈ ms, op ∉ m.1 ∧ cl ∉ m.2) ∧ (∀ a b, last = a ++ op :: b → cl ∉ b)
  | 0, pre, rest, cur, _, hn, hcur => by
    obtain rfl : rest = [] := List.length_eq_zero_iff.mp (by omega)
    refine ⟨[], cur.reverse, by simp [Re.cutFrom], by simp [Spec.assembled], by simp, ?_⟩
    intro a b e
    exact absurd (by rw [← List.mem_reverse, e]; simp) hcur
  | n + 1, pre, rest, cur, hnl, hn, hcur => by
    rcases hm : r.matchAt db pre rest with _ | t
    · cases rest with
      | nil =>
        refine ⟨[], cur.reverse, ?_, by simp [Spec.assembled], by simp, ?_⟩
        · rw [Re.cutFrom, hm]; rfl
        · intro a b e
          exact absurd (by rw [← List.mem_reverse, e]; simp) hcur
      | cons c cs =>
        have hstep : r.cutFrom db (n + 1) pre (c :: cs) cur = r.cutFrom db n (c :: pre) cs (c :: cur) := by
          rw [Re.cutFrom.eq_def]
          simp only [hm]
        by_cases hc : c = op
        · -- an opening character without a closing one: everything else is left alone
          subst hc
          have hcl' : cl ∉ cs := by
            intro hin
            obtain ⟨x, y, hx, hxn⟩ : ∃ x y, cs = x ++ cl :: y ∧ cl ∉ x := first_occurrence hin
            obtain ⟨caps, hma⟩ := block_matchAt (db := db) (op := c) hcl (pre := pre) (rest := y) hxn (fun h => hnl (by
              rw [hx]; simp [h]))
            rw [hr, hx, hma] at hm
            cases hm
          have hno : ∀ (k : Nat) (p q cu : Str), cl ∉ q → r.cutFrom db k p q cu = ([], cu.reverse ++ q) := by
            intro k
            induction k with
            | zero => intro p q cu _; rfl
            | succ k ih =>
              intro p q cu hq
              have hmn : r.matchAt db p q = none := by
                rcases hm' : r.matchAt db p q with _ | t
                · rfl
                · exfalso
                  have := (Re.matchAt_some hm').1
                  rw [hr] at this
                  obtain ⟨x, hx⟩ := block_run this
                  simp only at hx
                  exact hq (by rw [hx]; simp)
              rw [Re.cutFrom.eq_def]
              simp only [hmn]
              cases q with
              | nil => simp
              | cons d q =>
                simp only
                rw [ih (d :: p) q (d :: cu) (fun h => hq (by simp [h]))]
                simp
          refine ⟨[], cur.reverse ++ c :: cs, ?_, by simp [Spec.assembled], by simp, ?_⟩
          · rw [hstep, hno _ _ _ _ hcl']
            simp
          · intro a b e hb
            rcases List.append_eq_append_iff.mp e with ⟨a', ha, hb'⟩ | ⟨c', ha, hb'⟩
            · cases a' with
              | nil =>
                simp only [List.nil_append, List.cons.injEq] at hb'
                exact hcl' (hb'.2 ▸ hb)
              | cons d a' =>
                simp only [List.cons_append, List.cons.injEq] at hb'
                exact hcl' (by rw [hb'.2]; simp [hb])
            · cases c' with
              | nil =>
                simp only [List.nil_append, List.cons.injEq] at hb'
                exact hcl' (hb'.2 ▸ hb)
              | cons d c' =>
                simp only [List.cons_append, List.cons.injEq] at hb'
                exact hcur (by rw [← List.mem_reverse, ha, ← hb'.1]; simp)
        · obtain ⟨ms, last, h1, h2, h3, h4⟩ := block_cut (db := db) hr hcl n (c :: pre) cs (c :: cur)
            (fun h => hnl (by simp [h])) (by simpa using hn) (by
              intro h
              rcases List.mem_cons.mp h with h | h
              · exact hc h.symm
              · exact hcur h)
          refine ⟨ms, last, by rw [hstep, h1], ?_, h3, h4⟩
          rw [← h2]
          simp
    · have hrun := (Re.matchAt_some hm).1
      rw [hr] at hrun
      obtain ⟨x0, hx0⟩ := block_run hrun
      simp only at hx0
      -- the first closing character
      obtain ⟨x, y, hx, hxn⟩ : ∃ x y, x0 ++ cl :: t.rest = x ++ cl :: y ∧ cl ∉ x :=
        first_occurrence (by simp)
      have hrest : rest = op :: (x ++ cl :: y) := by rw [hx0, hx]
      obtain ⟨caps, hma⟩ := block_matchAt (db := db) (op := op) hcl (pre := pre) (rest := y) hxn (fun h => hnl (by
        rw [hrest]; simp [h]))
      have hm2 : r.matchAt db pre rest = some ⟨cl :: (x.reverse ++ op :: pre), y, caps⟩ := by rw [hr, hrest, hma]
      obtain ⟨ms, last, h1, h2, h3, h4⟩ := block_cut (db := db) hr hcl n (cl :: (x.reverse ++ op :: pre)) y []
        (fun h => hnl (by rw [hrest]; simp [h])) (by rw [hrest] at hn; simp at hn; omega) (by simp)
      refine ⟨(cur.reverse, x) :: ms, last, ?_, ?_, ?_, h4⟩
      · rw [Re.cutFrom.eq_def]
        simp only [hm2, h1]
        have : rest.take (rest.length - y.length) = op :: (x ++ [cl]) := by
          rw [hrest]
          have e : op :: (x ++ cl :: y) = (op :: (x ++ [cl])) ++ y := by simp
          rw [e, List.length_append, Nat.add_sub_cancel]
          exact List.take_left
        rw [this]
        rfl
      · rw [hrest]
        simp only [List.reverse_nil, List.nil_append] at h2
        simp [Spec.assembled, ← h2]
      · intro m hm'
        rcases List.mem_cons.mp hm' with rfl | hm'
        · exact ⟨by simpa using hcur, hxn⟩
        · exact h3 m hm'

/-- Text made of the remaining pieces. -/
def piecesText : List (Str × Str) → Str → Str
  | [], last => last
  | (b, m) :: ms, last => b ++ m ++ piecesText ms last

theorem cutFrom_text {db : CharDB} {r : Re} : ∀ (n : Nat) (pre rest cur : Str),
    piecesText (r.cutFrom db n pre rest cur).1 (r.cutFrom db n pre rest cur).2 = cur.reverse ++ rest
  | 0, _, _, _ => rfl
  | n + 1, pre, rest, cur => by
    rcases hm : r.matchAt db pre rest with _ | t
    · cases rest with
      | nil =>
        have e : r.cutFrom db (n + 1) pre [] cur = ([], cur.reverse) := by
          rw [Re.cutFrom.eq_def]
          simp only [hm]
        rw [e]
        simp [piecesText]
      | cons c cs =>
        have e : r.cutFrom db (n + 1) pre (c :: cs) cur = r.cutFrom db n (c :: pre) cs (c :: cur) := by
          rw [Re.cutFrom.eq_def]
          simp only [hm]
        rw [e, cutFrom_text n (c :: pre) cs (c :: cur)]
        simp
    · have ih := cutFrom_text (db := db) (r := r) n t.pre t.rest []
      obtain ⟨-, w, -, he⟩ := Re.matchAt_some hm
      have e2 : rest.take (rest.length - t.rest.length) = w := he.word
      have e : r.cutFrom db (n + 1) pre rest cur =
          ((cur.reverse, w) :: (r.cutFrom db n t.pre t.rest []).1, (r.cutFrom db n t.pre t.rest []).2) := by
        rw [Re.cutFrom.eq_def]
        simp only [hm, e2]
      rw [e]
      show cur.reverse ++ w ++ piecesText _ _ = _
      rw [ih, List.reverse_nil, List.nil_append, List.append_assoc]
      exact congrArg _ he.rest.symm

/-- The loop of `__find_blocks`: offsets and shift fit together. -/
theorem findBlocks_fold {st en : Char} : ∀ (ms : List (Str × Str)) (last out : Str) (i : Nat) (shift : Int)
    (ctr : List Str), (out.length : Int) = (i : Int) - shift →
    (∀ m ∈ ms, 2 ≤ m.2.length) →
    ((spansFrom i ms).foldl (findBlocksStep st en) (out ++ piecesText ms last, shift, ctr)).1 =
        out ++ Spec.marked st en natRepr ctr.length ms last ∧
    ((spansFrom i ms).foldl (findBlocksStep st en) (out ++ piecesText ms last, shift, ctr)).2.2 =
        ctr ++ ms.map (fun m => slice m.2 1 (-1))
  | [], last, out, i, shift, ctr, _, _ => by simp [spansFrom, piecesText, Spec.marked]
  | (b, m) :: ms, last, out, i, shift, ctr, hs, hm => by
    have key : findBlocksStep st en (out ++ piecesText ((b, m) :: ms) last, shift, ctr)
        (m, i + b.length, i + b.length + m.length) =
        ((out ++ b ++ [' ', st] ++ natRepr ctr.length ++ [en, ' ']) ++ piecesText ms last,
          shift + ((m.length : Int) - 4 - ((natRepr ctr.length).length : Int)), ctr ++ [slice m 1 (-1)]) := by
      unfold findBlocksStep
      simp only [List.length_append, List.length_singleton, Nat.add_sub_cancel]
      have e1 : (((i + b.length : Nat) : Int) - shift) = ((out ++ b).length : Nat) := by
        rw [List.length_append]; push_cast; omega
      have e2 : (((i + b.length + m.length : Nat) : Int) - shift) = ((out ++ b ++ m).length : Nat) := by
        rw [List.length_append, List.length_append]; push_cast; omega
      rw [e1, e2, sliceTo_nat, sliceFrom_nat]
      have t1 : out ++ piecesText ((b, m) :: ms) last = (out ++ b) ++ (m ++ piecesText ms last) := by
        simp [piecesText]
      have t2 : out ++ piecesText ((b, m) :: ms) last = (out ++ b ++ m) ++ piecesText ms last := by
        simp [piecesText]
      congr 1
      · rw [show List.take (out ++ b).length (out ++ piecesText ((b, m) :: ms) last) = out ++ b by
          rw [t1]; exact List.take_left]
        rw [show List.drop (out ++ b ++ m).length (out ++ piecesText ((b, m) :: ms) last) = piecesText ms last by
          rw [t2]; exact List.drop_left]
    have ih := findBlocks_fold (st := st) (en := en) ms last (out ++ b ++ [' ', st] ++ natRepr ctr.length ++ [en, ' '])
      (i + b.length + m.length) (shift + ((m.length : Int) - 4 - ((natRepr ctr.length).length : Int)))
      (ctr ++ [slice m 1 (-1)]) (by
        simp only [List.length_append, List.length_cons, List.length_nil]
        push_cast
        omega) (fun x hx => hm x (by simp [hx]))
    rw [spansFrom, List.foldl_cons, key]
    constructor
    · rw [ih.1]
      simp [Spec.marked]
    · rw [ih.2]
      simp

theorem slice_inner (op cl : Char) (x : Str) : slice (op :: (x ++ [cl])) 1 (-1) = x := by
  unfold slice clampIdx
  simp

/-- Runs of white space become one blank: the words stay the same. -/
theorem multiSpaces_words (db : CharDB) (t : Str) : splitWs (reMultiSpaces.sub db [.lit ' '] t) = splitWs t := by
  have hr : reMultiSpaces = .rep 1 true (.cls ⟨false, false, [.space]⟩) := rfl
  have key := Re.sub_induct (db := db) (r := reMultiSpaces) (tpl := [.lit ' '])
    (P := fun _ rest out => ∀ cur, splitWsAux out cur = splitWsAux rest cur) (by intros; rfl)
    (by
      intro pre c cs out _ ih cur
      simp only [splitWsAux]
      split
      · split
        · exact ih []
        · rw [ih []]
      · exact ih _)
    (by
      intro pre w u out _ hu hw he ih cur
      have hsp : ∀ c ∈ w, isSpace c = true := by
        rw [hr, Re.run, List.mem_flatMap] at hu
        obtain ⟨v, hv, hu⟩ := hu
        simp only [times, List.mem_flatMap, List.mem_singleton] at hv
        obtain ⟨v', hv', rfl⟩ := hv
        obtain ⟨c, cs, h1, h2, rfl⟩ := Re.run_cls hv'
        obtain ⟨x, h3, -, h5⟩ := mem_many_cls _ _ _ hu
        simp only at h1 h3
        have : w = c :: x := by
          have e : w ++ u.rest = (c :: x) ++ u.rest := by rw [h1, h3]; rfl
          exact List.append_cancel_right e
        intro d hd
        rw [this] at hd
        have ht : ∀ d, (Cls.mk false false [.space]).test db d = isSpace d := by
          intro d
          simp [Cls.test, Item.test]
        rcases List.mem_cons.mp hd with rfl | hd
        · rw [← ht]; exact h2
        · rw [← ht]; exact h5 d hd
      have e : expand w u.caps [.lit ' '] = [' '] := rfl
      rw [e]
      have hflush : ∀ (w : Str), (∀ c ∈ w, isSpace c = true) → ∀ rest, splitWsAux (w ++ rest) [] = splitWsAux rest [] := by
        intro w
        induction w with
        | nil => intro _ rest; rfl
        | cons c w ih =>
          intro h rest
          rw [List.cons_append, splitWsAux, if_pos (h c (by simp))]
          simpa using ih (fun d hd => h d (by simp [hd])) rest
      obtain ⟨c, w', rfl⟩ := List.exists_cons_of_ne_nil hw
      rw [List.singleton_append, List.cons_append, splitWsAux, splitWsAux, if_pos (show isSpace ' ' = true by decide),
        if_pos (hsp c (by simp)), hflush w' (fun d hd => hsp d (by simp [hd])), ih []])
    t
  exact key []

theorem findBlocks_exact (db : CharDB) {r : Re} {op cl st en : Char} (hr : r = .seq (.cls ⟨false, false, [.ch op]⟩)
      (.seq (.rep 0 false (.cls ⟨false, false, [.dot]⟩)) (.cls ⟨false, false, [.ch cl]⟩))) (hcl : cl ≠ '\n')
    (text : Str) (ctr : List Str) (hnl : '\n' ∉ text) : ∃ (ms : List (Str × Str)) (last : Str),
    text = Spec.assembled op cl ms last ∧ (∀ m ∈ ms, op ∉ m.1 ∧ cl ∉ m.2) ∧ (∀ a b, last = a ++ op :: b → cl ∉ b) ∧
    (findBlocks db r st en text ctr).2 = ctr ++ ms.map Prod.snd ∧
    (findBlocks db r st en text ctr).1 = reMultiSpaces.sub db [.lit ' '] (Spec.marked st en natRepr ctr.length ms last) := by
  obtain ⟨ms, last, h1, h2, h3, h4⟩ := block_cut (db := db) hr hcl text.length [] text [] hnl (Nat.le_refl _) (by simp)
  refine ⟨ms, last, by simpa using h2, h3, h4, ?_⟩
  have hf := findBlocks_fold (st := st) (en := en) (ms.map (fun m => (m.1, op :: (m.2 ++ [cl])))) last [] 0 0 ctr (by simp)
    (by
      intro m hm
      obtain ⟨x, -, rfl⟩ := List.mem_map.mp hm
      simp)
  have ht : piecesText (ms.map (fun m => (m.1, op :: (m.2 ++ [cl])))) last = text := by
    have := cutFrom_text (db := db) (r := r) text.length [] text []
    rw [h1] at this
    simpa using this
  rw [List.nil_append, ht] at hf
  have hspans : r.finditer db text = spansFrom 0 (ms.map (fun m => (m.1, op :: (m.2 ++ [cl])))) := by
    unfold Re.finditer Re.cut
    rw [h1]
  have hmarked : ∀ (ms : List (Str × Str)) (k : Nat),
      Spec.marked st en natRepr k (ms.map (fun m => (m.1, op :: (m.2 ++ [cl])))) last = Spec.marked st en natRepr k ms last := by
    intro ms
    induction ms with
    | nil => intro k; rfl
    | cons m ms ih =>
      intro k
      simp only [List.map_cons, Spec.marked]
      rw [ih]
  unfold findBlocks
  rw [hspans]
  constructor
  · show ((spansFrom 0 _).foldl (findBlocksStep st en) (text, 0, ctr)).2.2 = _
    rw [hf.2, List.map_map]
    congr 1
    apply List.map_congr_left
    intro m _
    exact slice_inner op cl m.2
  · show reMultiSpaces.sub db [.lit ' '] ((spansFrom 0 _).foldl (findBlocksStep st en) (text, 0, ctr)).1 = _
    rw [hf.1, List.nil_append, hmarked]

theorem findBlocks_spec (db : CharDB) {r : Re} {op cl st en : Char} (hr : r = .seq (.cls ⟨false, false, [.ch op]⟩)
      (.seq (.rep 0 false (.cls ⟨false, false, [.dot]⟩)) (.cls ⟨false, false, [.ch cl]⟩))) (hcl : cl ≠ '\n')
    (text : Str) (ctr : List Str) (hnl : '\n' ∉ text) : ∃ (ms : List (Str × Str)) (last : Str),
    text = Spec.assembled op cl ms last ∧ (∀ m ∈ ms, op ∉ m.1 ∧ cl ∉ m.2) ∧ (∀ a b, last = a ++ op :: b → cl ∉ b) ∧
    (findBlocks db r st en text ctr).2 = ctr ++ ms.map Prod.snd ∧
    splitWs (findBlocks db r st en text ctr).1 = splitWs (Spec.marked st en natRepr ctr.length ms last) := by
  obtain ⟨ms, last, h1, h2, h3, h4, h5⟩ := findBlocks_exact db hr hcl (st := st) (en := en) text ctr hnl
  exact ⟨ms, last, h1, h2, h3, h4, by rw [h5, multiSpaces_words]⟩

end Model
