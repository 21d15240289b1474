import Verif.Py.Str
import Mathlib.Algebra.Order.Ring.Unbundled.Rat

/-! Text files, independent of the model. -/

namespace Spec
open Py

/-- A text that may stand in a column of a text file: no tab, no line end, not empty, no white space at either end. -/
def Column (t : Str) : Prop := '\t' ∉ t ∧ '\n' ∉ t ∧ '\r' ∉ t ∧ t ≠ [] ∧
  (∀ c, t.head? = some c → isSpace c = false) ∧ (∀ c, t.getLast? = some c → isSpace c = false)

instance (t : Str) : Decidable (Column t) := by
  unfold Column
  exact inferInstance

/-- The text made of lines ended by `e`; the last line has its end only if `closed`. -/
def textLines (lines : List Str) (e : Str) (closed : Bool) : Str :=
  if closed then (lines.map (· ++ e)).flatten else List.intercalate e lines

/-- The lines of a text file: ended by a line feed, a carriage return or both; the last line may have no end. -/
inductive FileLines : Str → List Str → Prop
  | none : FileLines [] []
  | last {l : Str} : l ≠ [] → '\n' ∉ l → '\r' ∉ l → FileLines l [l]
  | line {l e rest : Str} {ls : List Str} : '\n' ∉ l → '\r' ∉ l → e = c!"\n" ∨ e = c!"\r\n" ∨ (e = c!"\r" ∧ rest.head? ≠ some '\n') →
      FileLines rest ls → FileLines (l ++ e ++ rest) (l :: ls)

/-- Decimal digits and the number they write. -/
inductive Numeral : Str → Nat → Prop
  | nil : Numeral [] 0
  | snoc {ds : Str} {n k : Nat} {d : Char} : Numeral ds n → c!"0123456789"[k]? = some d → Numeral (ds ++ [d]) (10 * n + k)

/-- A text with white space around. -/
def Padded (t core : Str) : Prop := ∃ a b, t = a ++ core ++ b ∧ (∀ c ∈ a, isSpace c = true) ∧ ∀ c ∈ b, isSpace c = true

/-- A whole number: an optional sign and digits. -/
def IntText (t : Str) (n : Int) : Prop := ∃ sign ds m, Padded t (sign ++ ds) ∧ ds ≠ [] ∧ Numeral ds m ∧
  ((sign = [] ∧ n = m) ∨ (sign = c!"+" ∧ n = m) ∨ (sign = c!"-" ∧ n = -m))

/-- A decimal number, read with the rounding `fl` to a float: an optional sign, digits, and possibly a point with or without digits
behind it. -/
def FloatText (fl : ℚ → ℚ) (t : Str) (v : ℚ) : Prop := ∃ sign a b m, a ++ b ≠ [] ∧ Numeral (a ++ b) m ∧
  (Padded t (sign ++ a ++ c!"." ++ b) ∨ (b = [] ∧ Padded t (sign ++ a))) ∧
  ((sign = [] ∧ v = fl (m / 10 ^ b.length)) ∨ (sign = c!"+" ∧ v = fl (m / 10 ^ b.length)) ∨
    (sign = c!"-" ∧ v = -fl (m / 10 ^ b.length)))

/-- Three columns. -/
def Columns (line a b c : Str) : Prop := line = a ++ '\t' :: b ++ '\t' :: c ∧ '\t' ∉ a ∧ '\t' ∉ b ∧ '\t' ∉ c

/-- The lines of several files in reading order, each with the minimum count of its file. -/
def allLines (files : List (Int × Str)) (lss : List (List Str)) : List (Int × Str) :=
  (List.zip files lss).flatMap fun p => p.2.map fun l => (p.1.1, l)

/-- A line that can be read: three columns, the second one a whole number and, when it reaches the minimum count, the third one a positive
number. -/
def Fine (fl : ℚ → ℚ) (r : Int × Str) : Prop := ∃ text c q n, Columns r.2 text c q ∧ IntText c n ∧
  (r.1 ≤ n → ∃ v, FloatText fl q v ∧ 0 < v)

/-- A line that gives an n-gram with its count and its probability. -/
def Row (fl : ℚ → ℚ) (r : Int × Str) (text : Str) (n : Int) (v : ℚ) : Prop := ∃ c q, Columns r.2 text c q ∧ IntText c n ∧
  r.1 ≤ n ∧ FloatText fl q v

end Spec
