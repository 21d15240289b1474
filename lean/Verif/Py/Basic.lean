import Mathlib.Data.List.Basic
import Mathlib.Data.List.Nodup
import Mathlib.Tactic.Common

/-!
Python primitives used by the model: strings as character lists, exceptions as values, indexing and slicing with
negative indices, insertion-ordered dictionaries.
-/

namespace Py

/-- A python `str`: the list of its code points. -/
abbrev Str := List Char

open Lean in
/-- `c!"abc"` is the list of characters of a string literal. -/
macro:max "c!" noWs s:str : term => do
  let cs := s.getString.toList.map (fun c => (Syntax.mkCharLit c : TSyntax `char))
  let arr : TSyntaxArray `term := (cs.map (fun c => (⟨c.raw⟩ : TSyntax `term))).toArray
  `(([$arr,*] : List Char))

/-- Python exceptions that the modelled code can raise. -/
inductive PyErr
  | assertion
  | index
  | key
  | value
  | zeroDivision
  | type
  | attribute
  | sentenceTooLong
  | notEnoughData
  | argumentValue
  | recursion
  deriving DecidableEq, Repr

instance {ε α : Type} [DecidableEq ε] [DecidableEq α] : DecidableEq (Except ε α) := fun a b =>
  match a, b with
  | .ok x, .ok y => if h : x = y then isTrue (by rw [h]) else isFalse (fun e => h (Except.ok.inj e))
  | .error x, .error y => if h : x = y then isTrue (by rw [h]) else isFalse (fun e => h (Except.error.inj e))
  | .ok _, .error _ => isFalse nofun
  | .error _, .ok _ => isFalse nofun

/-- Position denoted by a python slice bound `i` in a sequence of length `n` (negative = from the end, then clamped). -/
def clampIdx (n : Nat) (i : Int) : Nat :=
  if i < 0 then (i + n).toNat else min i.toNat n

/-- `l[a:b]` -/
def slice {α} (l : List α) (a b : Int) : List α :=
  (l.take (clampIdx l.length b)).drop (clampIdx l.length a)

/-- `l[a:]` -/
def sliceFrom {α} (l : List α) (a : Int) : List α :=
  l.drop (clampIdx l.length a)

/-- `l[:b]` -/
def sliceTo {α} (l : List α) (b : Int) : List α :=
  l.take (clampIdx l.length b)

/-- `l[i]`, `IndexError` when out of range. -/
def index {α} (l : List α) (i : Int) : Except PyErr α :=
  let j : Int := if i < 0 then i + l.length else i
  if j < 0 then .error .index
  else match l[j.toNat]? with
    | some x => .ok x
    | none => .error .index

/-! ### Dictionaries -/

/-- A python `dict`: association list in insertion order (unique keys is an invariant, see `Dict.Wf`). -/
abbrev Dict (κ ν : Type) := List (κ × ν)

namespace Dict
variable {κ ν : Type} [DecidableEq κ]

/-- `d.get(k)` -/
def get? : Dict κ ν → κ → Option ν
  | [], _ => none
  | (k', v) :: d, k => if k' = k then some v else get? d k

/-- `d[k]`, `KeyError` when absent. -/
def get (d : Dict κ ν) (k : κ) : Except PyErr ν :=
  match d.get? k with
  | some v => .ok v
  | none => .error .key

/-- `d[k] = v`: overwrites in place or appends. -/
def set : Dict κ ν → κ → ν → Dict κ ν
  | [], k, v => [(k, v)]
  | (k', v') :: d, k, v => if k' = k then (k', v) :: d else (k', v') :: set d k v

/-- `d.keys()` -/
def keys (d : Dict κ ν) : List κ := d.map Prod.fst

/-- `d.values()` -/
def values (d : Dict κ ν) : List ν := d.map Prod.snd

/-- `k in d` -/
def has (d : Dict κ ν) (k : κ) : Bool := (d.get? k).isSome

/-- Well-formed: keys are unique. -/
def Wf (d : Dict κ ν) : Prop := d.keys.Nodup

/-- `{k: v for k, v in pairs}` -/
def ofPairs (l : List (κ × ν)) : Dict κ ν := l.foldl (fun d p => d.set p.1 p.2) []

omit [DecidableEq κ] in
@[simp] theorem keys_nil : keys ([] : Dict κ ν) = [] := rfl
omit [DecidableEq κ] in
@[simp] theorem keys_cons (p : κ × ν) (d : Dict κ ν) : keys (p :: d) = p.1 :: keys d := rfl
@[simp] theorem get?_nil (k : κ) : get? ([] : Dict κ ν) k = none := rfl

theorem get?_set (d : Dict κ ν) (k k' : κ) (v : ν) :
    (d.set k v).get? k' = if k = k' then some v else d.get? k' := by
  induction d with
  | nil => simp [set, get?]
  | cons p d ih =>
    obtain ⟨a, b⟩ := p
    by_cases h : a = k
    · subst h
      by_cases h' : a = k' <;> simp [set, get?, h']
    · simp only [set, h, if_false, get?]
      by_cases h' : a = k'
      · subst h'
        simp [Ne.symm h]
      · simp [h', ih]

@[simp] theorem get?_set_self (d : Dict κ ν) (k : κ) (v : ν) : (d.set k v).get? k = some v := by
  simp [get?_set]

theorem get?_set_ne (d : Dict κ ν) {k k' : κ} (h : k ≠ k') (v : ν) : (d.set k v).get? k' = d.get? k' := by
  simp [get?_set, h]

theorem get?_eq_none_iff (d : Dict κ ν) (k : κ) : d.get? k = none ↔ k ∉ d.keys := by
  induction d with
  | nil => simp
  | cons p d ih =>
    obtain ⟨a, b⟩ := p
    by_cases h : a = k
    · simp [get?, h]
    · simp [get?, h, ih, Ne.symm h]

theorem get?_isSome_iff (d : Dict κ ν) (k : κ) : (d.get? k).isSome ↔ k ∈ d.keys := by
  have := get?_eq_none_iff d k
  cases h : d.get? k
  · simp [this.mp h]
  · simp only [Option.isSome_some, true_iff]
    by_contra hk
    rw [this.mpr hk] at h
    cases h

theorem has_iff (d : Dict κ ν) (k : κ) : d.has k = true ↔ k ∈ d.keys := by
  simp [has, get?_isSome_iff]

theorem mem_of_get? {d : Dict κ ν} {k : κ} {v : ν} (h : d.get? k = some v) : (k, v) ∈ d := by
  induction d with
  | nil => simp at h
  | cons p d ih =>
    obtain ⟨a, b⟩ := p
    by_cases hk : a = k
    · simp [get?, hk] at h
      simp [hk, h]
    · simp [get?, hk] at h
      exact List.mem_cons_of_mem _ (ih h)

theorem get?_of_mem {d : Dict κ ν} (hd : d.Wf) {k : κ} {v : ν} (h : (k, v) ∈ d) : d.get? k = some v := by
  induction d with
  | nil => simp at h
  | cons p d ih =>
    obtain ⟨a, b⟩ := p
    simp only [Wf, keys_cons, List.nodup_cons] at hd
    rcases List.mem_cons.mp h with h | h
    · cases h
      simp [get?]
    · have : k ∈ Dict.keys d := List.mem_map.mpr ⟨_, h, rfl⟩
      have hne : a ≠ k := fun e => hd.1 (e ▸ this)
      simp [get?, hne, ih hd.2 h]

theorem mem_iff_get? {d : Dict κ ν} (hd : d.Wf) {k : κ} {v : ν} : (k, v) ∈ d ↔ d.get? k = some v :=
  ⟨get?_of_mem hd, mem_of_get?⟩

theorem keys_set (d : Dict κ ν) (k : κ) (v : ν) :
    (d.set k v).keys = if k ∈ d.keys then d.keys else d.keys ++ [k] := by
  induction d with
  | nil => simp [set, keys]
  | cons p d ih =>
    obtain ⟨a, b⟩ := p
    by_cases h : a = k
    · simp [set, h]
    · simp only [set, h, if_false, keys_cons, ih, List.mem_cons, Ne.symm h, false_or]
      split <;> simp

theorem mem_keys_set (d : Dict κ ν) (k k' : κ) (v : ν) : k' ∈ (d.set k v).keys ↔ k' = k ∨ k' ∈ d.keys := by
  rw [keys_set]
  split
  · constructor
    · exact Or.inr
    · rintro (rfl | h) <;> assumption
  · simp [or_comm]

theorem Wf.set {d : Dict κ ν} (hd : d.Wf) (k : κ) (v : ν) : (d.set k v).Wf := by
  unfold Wf at *
  rw [keys_set]
  split
  · exact hd
  · rename_i h
    simp [List.nodup_append, hd]
    exact fun a ha e => h (e ▸ ha)

omit [DecidableEq κ] in
theorem Wf.nil : Wf ([] : Dict κ ν) := by simp [Wf]

theorem set_of_not_mem {d : Dict κ ν} {k : κ} (h : k ∉ d.keys) (v : ν) : d.set k v = d ++ [(k, v)] := by
  induction d with
  | nil => rfl
  | cons p d ih =>
    obtain ⟨a, b⟩ := p
    simp only [keys_cons, List.mem_cons, not_or] at h
    simp [Dict.set, Ne.symm h.1, ih h.2]

theorem mem_set {d : Dict κ ν} (hd : d.Wf) {k k' : κ} {v v' : ν} :
    (k', v') ∈ d.set k v ↔ (k' = k ∧ v' = v) ∨ (k' ≠ k ∧ (k', v') ∈ d) := by
  rw [mem_iff_get? (hd.set k v), mem_iff_get? hd, get?_set]
  by_cases h : k = k'
  · subst h; simp [eq_comm]
  · simp [h, Ne.symm h]

theorem length_set (d : Dict κ ν) (k : κ) (v : ν) :
    (d.set k v).length = if k ∈ d.keys then d.length else d.length + 1 := by
  have := congrArg List.length (keys_set d k v)
  simp only [keys, List.length_map] at this
  rw [this]
  unfold keys
  split <;> simp

theorem get?_append (d e : Dict κ ν) (k : κ) :
    get? (d ++ e) k = (d.get? k).or (get? e k) := by
  induction d with
  | nil => simp
  | cons p d ih =>
    obtain ⟨a, b⟩ := p
    by_cases h : a = k
    · simp [get?, h]
    · simp [get?, h]; exact ih

theorem Wf.ofPairs (l : List (κ × ν)) : (Dict.ofPairs l).Wf := by
  unfold Dict.ofPairs
  suffices ∀ d : Dict κ ν, d.Wf → (l.foldl (fun d p => d.set p.1 p.2) d).Wf from this [] Wf.nil
  induction l with
  | nil => intro d h; exact h
  | cons p l ih => intro d h; exact ih _ (h.set _ _)

/-- Looking up in a dictionary comprehension: the last pair wins. -/
theorem get?_ofPairs (l : List (κ × ν)) (k : κ) : (Dict.ofPairs l).get? k = get? l.reverse k := by
  unfold Dict.ofPairs
  suffices ∀ d : Dict κ ν, (l.foldl (fun d p => d.set p.1 p.2) d).get? k = (get? l.reverse k).or (d.get? k) by
    have := this []; simpa using this
  induction l with
  | nil => intro d; simp
  | cons p l ih =>
    intro d
    simp only [List.foldl_cons, ih, List.reverse_cons, get?_append, get?_set]
    obtain ⟨a, b⟩ := p
    by_cases h : a = k
    · cases get? l.reverse k <;> simp [get?, h]
    · cases get? l.reverse k <;> simp [get?, h]

end Dict
end Py
