import Verif.Model.Ngrams
import Verif.Model.Multithreading

/-! Model of `scrappybara/langmodel/smoother.py`, `mle_smoother.py` and `mkn_smoother.py`.
Floats are exact rationals; numpy columns are lists; a division by zero gives `none` (`inf`/`nan`) as numpy only warns.
Each multithreaded calculation is run under a schedule; `none` results mean that a call has not returned yet. -/

namespace Model
open Py

/-- `_process_ranges`: `np.linspace(…, dtype=int)` truncates the marks. smoother.py:37-40 -/
def processRanges (R : Rounding) (n nb : Nat) : List (List Nat) :=
  (List.range nb).map fun i =>
    let a := (Model.pyInt (linspaceMark R n nb i)).toNat
    let b := (Model.pyInt (linspaceMark R n nb (i + 1))).toNat
    (List.range (b - a)).map (a + ·)

/-- `np_probas = data_slices[0].np_probas` and the concatenations, smoother.py:19-22 -/
def concatSlices (outs : List (List Num)) : Except PyErr (List Num) := do
  let first ← index outs 0
  return (sliceFrom outs 1).foldl (fun a b => a ++ b) first

/-- `calc_ngrams_multithread`, smoother.py:17-22; `process` computes `np_probas` of a slice and returns it. -/
def calcNgramsMultithread {α} (R : Rounding) (slices : List α) (process : α → List Num) (nb : Nat)
    (sched : List Move) : Except PyErr (Option (List Num)) := do
  let r ← runMultithreads R slices (fun s => .ok (process s)) (nb : Int) sched
  match r with
  | none => .ok none
  | some outs => do
    let ps ← concatSlices outs
    return some ps

/-- One assignment `self._ngrams[order][idx].proba = proba`, mle_smoother.py:43, mkn_smoother.py:132,137 -/
def assignOne (order : Nat) (d : Dict Nat (List Ngram)) (p : Num × Nat) : Except PyErr (Dict Nat (List Ngram)) := do
  let gs ← Dict.get d order
  if p.2 < gs.length then .ok (Dict.set d order (gs.modify p.2 fun g => { g with proba := some p.1 }))
  else .error .index

/-- `for idx, proba in enumerate(np_probas): …`, mle_smoother.py:42-43, mkn_smoother.py:131-132,136-137 -/
def assignProbas (d : Dict Nat (List Ngram)) (order : Nat) (ps : List Num) : Except PyErr (Dict Nat (List Ngram)) :=
  ps.zipIdx.foldlM (assignOne order) d

/-- Exact division; `none` for a zero divisor. -/
def numDiv (a b : ℚ) : Num := if b = 0 then none else some (a / b)

/-- `x + y` with `nan`/`inf` absorbing. -/
def numAdd : Num → Num → Num
  | some a, some b => some (a + b)
  | _, _ => none

/-- `x * y` with `nan`/`inf` absorbing. -/
def numMul : Num → Num → Num
  | some a, some b => some (a * b)
  | _, _ => none

/-- `x / y` with `nan`/`inf` absorbing. -/
def numDivN : Num → ℚ → Num
  | some a, b => numDiv a b
  | none, _ => none

/-! ### Maximum likelihood -/

/-- One n-gram counted by the constructor, mle_smoother.py:29-31 -/
def mleCount (s : Dict Nat Nat × Dict Nat (List Ngram)) (g : Ngram) :
    Except PyErr (Dict Nat Nat × Dict Nat (List Ngram)) := do
  let c ← Dict.get s.1 g.order
  return (Dict.set s.1 g.order (c + g.count), appendToDictList s.2 g.order g)

/-- `MLESmoother.__init__`: total counts and n-grams per order, mle_smoother.py:26-32 -/
def mleInit (ngrams : List Ngram) (lastOrder : Nat) : Except PyErr (Dict Nat Nat × Dict Nat (List Ngram)) :=
  ngrams.foldlM mleCount (Dict.ofPairs ((List.range lastOrder).map fun i => (i + 1, 0)), [])

/-- The counts of a process range, mle_smoother.py:39 -/
def mleCounts (gs : List Ngram) (range : List Nat) : Except PyErr (List Nat) :=
  range.mapM fun (i : Nat) => do
    let g ← index gs (i : Int)
    return g.count

/-- One order of `MLESmoother.__call__`, mle_smoother.py:36-43 -/
def mleOrder (R : Rounding) (totals : Dict Nat Nat) (nb : Nat) (sched : List Move) (d : Dict Nat (List Ngram))
    (order : Nat) : Except PyErr (Option (Dict Nat (List Ngram))) := do
  let ngrams ← Dict.get d order
  let slices ← (processRanges R ((Dict.get? d order).getD []).length nb).mapM (mleCounts ngrams)
  let total ← Dict.get totals order
  let r ← calcNgramsMultithread R slices (fun counts => counts.map fun (c : Nat) => numDiv c total) nb sched
  match r with
  | none => .ok none
  | some ps => do
    let d ← assignProbas d order ps
    return some d

/-- Runs a step for each order, stopping when a call has not returned. -/
def forOrders (step : Dict Nat (List Ngram) → Nat → Except PyErr (Option (Dict Nat (List Ngram)))) :
    List Nat → Dict Nat (List Ngram) → Except PyErr (Option (Dict Nat (List Ngram)))
  | [], d => .ok (some d)
  | o :: os, d => do
    let r ← step d o
    match r with
    | none => .ok none
    | some d => forOrders step os d

/-- `MLESmoother(ngrams, last_order, nb)()`: the n-grams per order with their probabilities, mle_smoother.py:24-44.
`sched` gives the schedule of the calculation of each order. -/
def mleSmooth (R : Rounding) (ngrams : List Ngram) (lastOrder nb : Nat) (sched : Nat → List Move) :
    Except PyErr (Option (Dict Nat (List Ngram))) := do
  let s ← mleInit ngrams lastOrder
  forOrders (fun d o => mleOrder R s.1 nb (sched o) d o) ((List.range lastOrder).map (· + 1)) s.2

/-! ### Modified Kneser-Ney -/

/-- The counters of `_prepare_mkn`, mkn_smoother.py:18-26 -/
structure MknCounts where
  lm : Dict Nat (List Ngram) := []
  wcs : Counter Str := []
  wc1 : Counter Str := []
  wc2 : Counter Str := []
  wc3 : Counter Str := []
  n1 : Counter Nat := []
  n2 : Counter Nat := []
  n3 : Counter Nat := []
  n4 : Counter Nat := []

/-- The `n` counts of one n-gram, mkn_smoother.py:29-36 -/
def mknCountN (s : MknCounts) (g : Ngram) : MknCounts :=
  if g.count = 1 then { s with n1 := Counter.incr s.n1 g.order }
  else if g.count = 2 then { s with n2 := Counter.incr s.n2 g.order }
  else if g.count = 3 then { s with n3 := Counter.incr s.n3 g.order }
  else if g.count = 4 then { s with n4 := Counter.incr s.n4 g.order }
  else s

/-- `• ngram`, mkn_smoother.py:39 -/
def wcFirst (g : Ngram) : Str := c!"•" ++ c!" " ++ join c!" " (sliceFrom g.tokens 1)
/-- `ngram •`, mkn_smoother.py:40 -/
def wcLast (g : Ngram) : Str := join c!" " (sliceTo g.tokens (-1)) ++ c!" " ++ c!"•"
/-- `• ngram •`, mkn_smoother.py:48 -/
def wcBoth (g : Ngram) : Str := c!"•" ++ c!" " ++ join c!" " (slice g.tokens 1 (-1)) ++ c!" " ++ c!"•"

/-- The backoff counters of one n-gram, mkn_smoother.py:41-46 -/
def mknCountBackoff (s : MknCounts) (g : Ngram) : MknCounts :=
  if g.count = 1 then { s with wc1 := Counter.incr s.wc1 (wcLast g) }
  else if g.count = 2 then { s with wc2 := Counter.incr s.wc2 (wcLast g) }
  else { s with wc3 := Counter.incr s.wc3 (wcLast g) }

/-- The wildcards of one n-gram, mkn_smoother.py:38-46 -/
def mknCountWildcards (s : MknCounts) (g : Ngram) : MknCounts :=
  if g.order > 1 then mknCountBackoff { s with wcs := Counter.incr s.wcs (wcFirst g) } g else s

/-- The double wildcard of one n-gram, mkn_smoother.py:47-48 -/
def mknCountBoth (s : MknCounts) (g : Ngram) : MknCounts :=
  if g.order > 2 then { s with wcs := Counter.incr s.wcs (wcBoth g) } else s

/-- One n-gram, mkn_smoother.py:27-49 -/
def mknCount (s : MknCounts) (g : Ngram) : MknCounts :=
  let s := mknCountBoth (mknCountWildcards (mknCountN s g) g) g
  { s with lm := appendToDictList s.lm g.order g }

/-- The discounts of an order, mkn_smoother.py:58-61 -/
structure Discounts where
  d1 : ℚ
  d2 : ℚ
  d3 : ℚ

/-- The discounts of an order, mkn_smoother.py:55-61 -/
def mknDiscounts (s : MknCounts) (order : Nat) : Except PyErr Discounts :=
  let n1 := Counter.get0 s.n1 order
  let n2 := Counter.get0 s.n2 order
  let n3 := Counter.get0 s.n3 order
  let n4 := Counter.get0 s.n4 order
  if n1 = 0 ∨ n2 = 0 ∨ n3 = 0 ∨ n4 = 0 then .error .notEnoughData
  else
    let y : ℚ := n1 / (n1 + 2 * n2)
    .ok { d1 := 1 - 2 * y * n2 / n1, d2 := 2 - 3 * y * n3 / n2, d3 := 3 - 4 * y * n4 / n3 }

/-- `range(2, last_order + 1)`, mkn_smoother.py:54,134 -/
def ordersFrom2 (lastOrder : Nat) : List Nat := (List.range (lastOrder - 1)).map (· + 2)

/-- An `MKNSmoother`, mkn_smoother.py:110-126. The three dictionaries of discounts are one dictionary of triples. -/
structure Mkn where
  counts : MknCounts
  disc : Dict Nat Discounts
  lookup : Dict Str Ngram
  lastOrder : Nat

/-- Discounts of all orders, mkn_smoother.py:51-61 -/
def mknAllDiscounts (s : MknCounts) (orders : List Nat) : Except PyErr (Dict Nat Discounts) := do
  let ds ← orders.mapM fun o => do
    let d ← mknDiscounts s o
    return (o, d)
  return Dict.ofPairs ds

/-- `MKNSmoother.__init__`, mkn_smoother.py:110-126, with `_prepare_mkn`, mkn_smoother.py:16-62 -/
def mknInit (ngrams : List Ngram) (lastOrder : Nat) : Except PyErr Mkn := do
  let s := ngrams.foldl mknCount {}
  let disc ← mknAllDiscounts s (ordersFrom2 lastOrder)
  return { counts := s, disc := disc, lastOrder := lastOrder
           lookup := Dict.ofPairs ((s.lm.flatMap fun p => p.2).map fun g => (g.text, g)) }

/-- `__discount`, mkn_smoother.py:140-147 -/
def Mkn.discount (m : Mkn) (order : Nat) (countc : Nat) : Except PyErr ℚ :=
  if countc = 0 then .ok 0
  else do
    let d ← Dict.get m.disc order
    return if countc = 1 then d.d1 else if countc = 2 then d.d2 else d.d3

/-- The operands of an n-gram, mkn_smoother.py:173 -/
structure Pack where
  cl : ℚ
  clD : ℚ
  crl : ℚ
  n1 : ℚ
  n1D : ℚ
  n2 : ℚ
  n2D : ℚ
  n3 : ℚ
  n3D : ℚ

/-- The numbers read at one level: count, discount, context count and backoff key, mkn_smoother.py:153-166 -/
def Mkn.packTop (m : Mkn) (g : Ngram) (order : Nat) : Except PyErr (Nat × ℚ × Nat × Str) := do
  let d ← m.discount order g.count
  let ctx ← g.withoutLastToken
  let c ← Dict.get m.lookup ctx
  let wc ← g.wcLastToken
  return (g.count, d, c.count, wc)

/-- Below the highest order, mkn_smoother.py:161-166 -/
def Mkn.packLower (m : Mkn) (g : Ngram) (order : Nat) : Except PyErr (Nat × ℚ × Nat × Str) := do
  let low ← g.lowerOrder order
  let lower ← Dict.get m.lookup low
  let cl := Counter.get0 m.counts.wcs lower.prependWc
  let d ← m.discount (order + 1) cl
  let cont ← lower.continuousNgram
  let wc ← lower.wcLastToken
  return (cl, d, Counter.get0 m.counts.wcs cont, wc)

/-- `__mkn_pack`, mkn_smoother.py:149-173 -/
def Mkn.pack (m : Mkn) (g : Ngram) (order : Nat) : Except PyErr Pack :=
  if order > 1 then do
    let x ← (if g.order = order then m.packTop g order else m.packLower g order)
    let d ← Dict.get m.disc order
    return { cl := x.1, clD := x.2.1, crl := x.2.2.1
             n1 := Counter.get0 m.counts.wc1 x.2.2.2, n1D := d.d1
             n2 := Counter.get0 m.counts.wc2 x.2.2.2, n2D := d.d2
             n3 := Counter.get0 m.counts.wc3 x.2.2.2, n3D := d.d3 }
  else .error .assertion

/-- The nested operand lists, mkn_smoother.py:183,208-209; the three discounts are scalars, `None` for an empty
range. -/
inductive Operands
  | uni (ps : List Num)
  | level (l d lr r1 : List ℚ) (d1 : Num) (r2 : List ℚ) (d2 : Num) (r3 : List ℚ) (d3 : Num) (rest : Operands)

/-- Packs of a range, mkn_smoother.py:195-198 -/
def Mkn.packs (m : Mkn) (start order : Nat) (range : List Nat) : Except PyErr (List Pack) :=
  range.mapM fun (i : Nat) => do
    let gs ← Dict.get m.counts.lm start
    let g ← index gs (i : Int)
    m.pack g order

/-- Unigram column, mkn_smoother.py:180-183 -/
def Mkn.uniColumn (m : Mkn) (uniMkns : Dict Str Num) (start : Nat) (range : List Nat) : Except PyErr (List Num) :=
  range.mapM fun (i : Nat) => do
    let gs ← Dict.get m.counts.lm start
    let g ← index gs (i : Int)
    let t ← g.lastToken
    Dict.get uniMkns t

/-- `__mkn_arrays`, mkn_smoother.py:175-209. An order of 0 is never reached; python would recurse forever. -/
def Mkn.arrays (m : Mkn) (uniMkns : Dict Str Num) (start : Nat) : Nat → List Nat → Except PyErr Operands
  | 0, _ => .error .recursion
  | 1, range =>
    if start > 1 then do
      let ps ← m.uniColumn uniMkns start range
      return .uni ps
    else .error .assertion
  | order + 2, range =>
    if start > 1 then do
      let ps ← m.packs start (order + 2) range
      let rest ← m.arrays uniMkns start (order + 1) range
      return .level (ps.map Pack.cl) (ps.map Pack.clD) (ps.map Pack.crl) (ps.map Pack.n1) (ps.getLast?.map Pack.n1D)
        (ps.map Pack.n2) (ps.getLast?.map Pack.n2D) (ps.map Pack.n3) (ps.getLast?.map Pack.n3D) rest
    else .error .assertion

/-- `_calc_proba_recursive`, mkn_smoother.py:78-95 -/
def calcProbaRecursive : Operands → List Num
  | .uni ps => ps
  | .level l d lr r1 d1 r2 d2 r3 d3 rest =>
    let cc := List.zipWith numDiv (List.zipWith (fun a b => max (a - b) 0) l d) lr
    let r1 := r1.map fun x => numMul (some x) d1
    let r2 := r2.map fun x => numMul (some x) d2
    let r3 := r3.map fun x => numMul (some x) d3
    let weight := List.zipWith numDivN (List.zipWith numAdd (List.zipWith numAdd r1 r2) r3) lr
    List.zipWith numAdd cc (List.zipWith numMul weight (calcProbaRecursive rest))

/-- The counts of a range of unigrams, mkn_smoother.py:224-227 -/
def Mkn.uniCounts (m : Mkn) (range : List Nat) : Except PyErr (List Nat) :=
  range.mapM fun (i : Nat) => do
    let gs ← Dict.get m.counts.lm 1
    let g ← index gs (i : Int)
    return Counter.get0 m.counts.wcs g.prependWc

/-- One entry of the unigram lookup, mkn_smoother.py:231 -/
def Mkn.uniEntry (m : Mkn) (ps : List Num) (d : Dict Str Num) (i : Nat) : Except PyErr (Dict Str Num) := do
  let gs ← Dict.get m.counts.lm 1
  let g ← index gs (i : Int)
  let p ← index ps (i : Int)
  return Dict.set d g.text p

/-- `calc_unigram_probas`: probabilities and the lookup it fills, mkn_smoother.py:220-232 -/
def Mkn.calcUnigramProbas (m : Mkn) (R : Rounding) (nb : Nat) (sched : List Move) :
    Except PyErr (Option (List Num × Dict Str Num)) := do
  let nbBigrams := ((Dict.get? m.counts.lm 2).getD []).length
  let nbUni := ((Dict.get? m.counts.lm 1).getD []).length
  let slices ← (processRanges R nbUni nb).mapM m.uniCounts
  let r ← calcNgramsMultithread R slices (fun cs => cs.map fun (c : Nat) => numDiv c nbBigrams) nb sched
  match r with
  | none => .ok none
  | some ps => do
    let d ← (List.range nbUni).foldlM (m.uniEntry ps) []
    return some (ps, d)

/-- `calc_higher_order_probas`, mkn_smoother.py:234-239 -/
def Mkn.calcHigherOrderProbas (m : Mkn) (R : Rounding) (nb : Nat) (sched : List Move) (uniMkns : Dict Str Num)
    (order : Nat) : Except PyErr (Option (List Num)) :=
  if order > 1 then do
    let slices ← (processRanges R ((Dict.get? m.counts.lm order).getD []).length nb).mapM
      (m.arrays uniMkns order order)
    calcNgramsMultithread R slices calcProbaRecursive nb sched
  else .error .assertion

/-- Assigning the probabilities of an order when they have been calculated, mkn_smoother.py:136-137 -/
def assignResult (d : Dict Nat (List Ngram)) (order : Nat) :
    Option (List Num) → Except PyErr (Option (Dict Nat (List Ngram)))
  | none => .ok none
  | some ps => do
    let d ← assignProbas d order ps
    return some d

/-- `MKNSmoother.__call__`, mkn_smoother.py:128-138. The n-gram objects are shared with the lookups, which only read
texts and counts. -/
def Mkn.call (m : Mkn) (R : Rounding) (nb : Nat) (sched : Nat → List Move) :
    Except PyErr (Option (Dict Nat (List Ngram))) := do
  let r ← m.calcUnigramProbas R nb (sched 1)
  match r with
  | none => .ok none
  | some (ps, uni) => do
    let d ← assignProbas m.counts.lm 1 ps
    forOrders (fun d o => do
      let r ← m.calcHigherOrderProbas R nb (sched o) uni o
      assignResult d o r) (ordersFrom2 m.lastOrder) d

/-- `MKNSmoother(ngrams, last_order, nb)()` -/
def mknSmooth (R : Rounding) (ngrams : List Ngram) (lastOrder nb : Nat) (sched : Nat → List Move) :
    Except PyErr (Option (Dict Nat (List Ngram))) := do
  let m ← mknInit ngrams lastOrder
  m.call R nb sched

end Model
