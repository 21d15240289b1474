import Verif.Model.Text

/-! C138: tests of the letters of a token. -/

namespace Props
open Py Model

/-- The small letters. -/
def smallLetters : Str := c!"abcdefghijklmnopqrstuvwxyz"

/-- The capital letters. -/
def capitalLetters : Str := c!"ABCDEFGHIJKLMNOPQRSTUVWXYZ"

theorem letter_range : ∀ n < 128, ((97 ≤ n ∧ n ≤ 122) ↔ Char.ofNat n ∈ smallLetters) ∧
    ((65 ≤ n ∧ n ≤ 90) ↔ Char.ofNat n ∈ capitalLetters) := by decide +kernel

theorem letter_small (x : Char) : ('a' ≤ x ∧ x ≤ 'z') ↔ x ∈ smallLetters := by
  have e : Char.ofNat x.toNat = x := Char.ofNat_toNat x
  have h : ('a' ≤ x ∧ x ≤ 'z') ↔ (97 ≤ x.toNat ∧ x.toNat ≤ 122) := Iff.rfl
  rw [h]
  by_cases hx : x.toNat < 128
  · rw [(letter_range _ hx).1, e]
  · have small : ∀ y ∈ smallLetters, y.toNat < 128 := by decide +kernel
    constructor
    · intro k; omega
    · intro k; exact absurd (small x k) hx

theorem letter_capital (x : Char) : ('A' ≤ x ∧ x ≤ 'Z') ↔ x ∈ capitalLetters := by
  have e : Char.ofNat x.toNat = x := Char.ofNat_toNat x
  have h : ('A' ≤ x ∧ x ≤ 'Z') ↔ (65 ≤ x.toNat ∧ x.toNat ≤ 90) := Iff.rfl
  rw [h]
  by_cases hx : x.toNat < 128
  · rw [(letter_range _ hx).2, e]
  · have small : ∀ y ∈ capitalLetters, y.toNat < 128 := by decide +kernel
    constructor
    · intro k; omega
    · intro k; exact absurd (small x k) hx

/-- **C138.** `has_only_letters` accepts exactly the tokens that are not empty and consist of the 52 unaccented letters. -/
theorem C138_only_letters (token : Str) :
    hasOnlyLetters token = true ↔ token ≠ [] ∧ ∀ x ∈ token, x ∈ smallLetters ∨ x ∈ capitalLetters := by
  simp [hasOnlyLetters, isAsciiLetter, ← letter_small, ← letter_capital]

example : hasOnlyLetters c!"iPhone" = true ∧ hasOnlyLetters c!"café" = false ∧ hasOnlyLetters c!"" = false := by decide +kernel

/-- **C138.** `starts_with_uppercase_letter` looks at the first character; without one it raises an `IndexError`. -/
theorem C138_uppercase_start (x : Char) (rest : Str) : startsWithUppercaseLetter [] = .error .index ∧
    startsWithUppercaseLetter (x :: rest) = .ok (decide (x ∈ capitalLetters)) := by
  refine ⟨rfl, ?_⟩
  have : index (x :: rest) 0 = .ok x := by unfold index; simp
  simp only [startsWithUppercaseLetter, this]
  rfl

example : startsWithUppercaseLetter c!"Paris" = .ok true ∧ startsWithUppercaseLetter c!"Écosse" = .ok false := ⟨rfl, rfl⟩

/-- **C138.** `ends_with_consonant` looks at the last character; without one it raises an `IndexError`. -/
theorem C138_consonant_end (start : Str) (x : Char) : endsWithConsonant [] = .error .index ∧
    endsWithConsonant (start ++ [x]) = .ok (decide (x ∈ smallLetters ∧ x ∉ c!"aeiouy")) := by
  refine ⟨rfl, ?_⟩
  have h : index (start ++ [x]) (-1) = .ok x := by
    unfold index
    simp
  have hc : (x ∈ consonants) ↔ (x ∈ smallLetters ∧ x ∉ c!"aeiouy") := by
    have h1 : ∀ y ∈ consonants, y ∈ smallLetters ∧ y ∉ c!"aeiouy" := by decide +kernel
    have h2 : ∀ y ∈ smallLetters, y ∉ c!"aeiouy" → y ∈ consonants := by decide +kernel
    exact ⟨h1 x, fun k => h2 x k.1 k.2⟩
  simp only [endsWithConsonant, h, bind, Except.bind, pure, Except.pure, hc]

example : endsWithConsonant c!"play" = .ok false ∧ endsWithConsonant c!"run" = .ok true := ⟨rfl, rfl⟩

/-- **C138**, in part: `has_only_lowercase_letters` accepts tokens of small letters, and no token that is empty or has another
character than a letter. Full claim: it accepts exactly the tokens that are not empty and consist of small letters,
`hasOnlyLowercaseLetters token = true ↔ token ≠ [] ∧ ∀ x ∈ token, x ∈ smallLetters`; false, see below. -/
theorem C138_lowercase_partial (token : Str) :
    (token ≠ [] → (∀ x ∈ token, x ∈ smallLetters) → hasOnlyLowercaseLetters token = true) ∧
    (hasOnlyLowercaseLetters token = true → token ≠ [] ∧ ∀ x ∈ token, x ∈ smallLetters ∨ x ∈ capitalLetters) := by
  have h : hasOnlyLowercaseLetters token = true ↔ token ≠ [] ∧ ∀ x ∈ token, x ∈ smallLetters ∨ x ∈ capitalLetters := by
    simp [hasOnlyLowercaseLetters, isAsciiLetter, ← letter_small, ← letter_capital]
  exact ⟨fun h1 h2 => h.mpr ⟨h1, fun x hx => .inl (h2 x hx)⟩, h.mp⟩

example : c!"paris" ≠ [] ∧ (∀ x ∈ c!"paris", x ∈ smallLetters) := by decide +kernel

/-- C138 does not hold for `has_only_lowercase_letters`, which accepts capital letters. -/
theorem C138_lowercase_false : hasOnlyLowercaseLetters c!"PARIS" = true ∧ ∀ x ∈ c!"PARIS", x ∉ smallLetters := by decide +kernel

end Props
