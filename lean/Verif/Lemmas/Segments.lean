import Verif.Spec.Preprocessing

/-! Lists with delimited parts: cut into what stands before each part, the part, and a rest; the cut is unique. -/

namespace Model
open Py

section
variable {α : Type}

/-- `Spec.assembled` for lists of anything. -/
def asm (op cl : α) : List (List α × List α) → List α → List α
  | [], last => last
  | (b, x) :: ms, last => b ++ op :: (x ++ cl :: asm op cl ms last)

/-- The parts are replaced by numbered markers. -/
def asmMark (mk : Nat → List α) : Nat → List (List α × List α) → List α → List α
  | _, [], last => last
  | k, (b, _) :: ms, last => b ++ (mk k ++ asmMark mk (k + 1) ms last)

/-- The same with segments: plain ones and delimited ones. -/
def segFlat (op cl : α) : List (Bool × List α) → List α
  | [] => []
  | (false, s) :: ss => s ++ segFlat op cl ss
  | (true, s) :: ss => op :: (s ++ cl :: segFlat op cl ss)

def segMark (mk : Nat → List α) : Nat → List (Bool × List α) → List α
  | _, [] => []
  | k, (false, s) :: ss => s ++ segMark mk k ss
  | k, (true, _) :: ss => mk k ++ segMark mk (k + 1) ss

/-- The delimited parts. -/
def segParts : List (Bool × List α) → List (List α)
  | [] => []
  | (false, _) :: ss => segParts ss
  | (true, s) :: ss => s :: segParts ss

theorem segFlat_append (op cl : α) (A B : List (Bool × List α)) : segFlat op cl (A ++ B) = segFlat op cl A ++ segFlat op cl B := by
  induction A with
  | nil => rfl
  | cons s A ih =>
    obtain ⟨b, s⟩ := s
    cases b <;> simp [segFlat, ih]

theorem segParts_append (A B : List (Bool × List α)) : segParts (A ++ B) = segParts A ++ segParts B := by
  induction A with
  | nil => rfl
  | cons s A ih =>
    obtain ⟨b, s⟩ := s
    cases b <;> simp [segParts, ih]

theorem segMark_append (mk : Nat → List α) (k : Nat) (A B : List (Bool × List α)) :
    segMark mk k (A ++ B) = segMark mk k A ++ segMark mk (k + (segParts A).length) B := by
  induction A generalizing k with
  | nil => rfl
  | cons s A ih =>
    obtain ⟨b, s⟩ := s
    cases b
    · simp [segMark, segParts, ih]
    · simp only [List.cons_append, segMark, segParts, ih, List.length_cons, List.append_assoc]
      rw [show k + 1 + (segParts A).length = k + ((segParts A).length + 1) by omega]

theorem seg_asm (op cl : α) (segs : List (Bool × List α)) (h : ∀ s ∈ segs, op ∉ s.2 ∧ cl ∉ s.2) :
    ∃ ms last, segFlat op cl segs = asm op cl ms last ∧ (∀ (mk : Nat → List α) (k), segMark mk k segs = asmMark mk k ms last) ∧
      segParts segs = ms.map Prod.snd ∧ (∀ m ∈ ms, (op ∉ m.1 ∧ cl ∉ m.1) ∧ op ∉ m.2 ∧ cl ∉ m.2) ∧ op ∉ last ∧ cl ∉ last := by
  induction segs with
  | nil => exact ⟨[], [], rfl, fun _ _ => rfl, rfl, by simp, by simp, by simp⟩
  | cons s segs ih =>
    obtain ⟨ms, last, h1, h2, h3, h4, h5, h6⟩ := ih fun t ht => h t (by simp [ht])
    obtain ⟨b, s⟩ := s
    have hs := h (b, s) (by simp)
    cases b
    · cases ms with
      | nil =>
        refine ⟨[], s ++ last, by simp [segFlat, h1, asm], fun mk k => by simp [segMark, h2, asmMark], h3, by simp, ?_, ?_⟩ <;>
        simp [hs.1, hs.2, h5, h6]
      | cons m ms =>
        obtain ⟨c, x⟩ := m
        refine ⟨(s ++ c, x) :: ms, last, by simp [segFlat, h1, asm], fun mk k => by simp [segMark, h2, asmMark], h3, ?_, h5, h6⟩
        intro m hm
        rcases List.mem_cons.mp hm with rfl | hm
        · have := h4 (c, x) (by simp)
          exact ⟨⟨by simp [hs.1, this.1.1], by simp [hs.2, this.1.2]⟩, this.2⟩
        · exact h4 m (by simp [hm])
    · refine ⟨([], s) :: ms, last, by simp [segFlat, h1, asm], fun mk k => by simp [segMark, h2, asmMark], by simp [segParts, h3], ?_, h5, h6⟩
      intro m hm
      rcases List.mem_cons.mp hm with rfl | hm
      · exact ⟨by simp, hs⟩
      · exact h4 m hm

/-- What stands before the first occurrence. -/
theorem first_unique {a : α} {x y x' y' : List α} (e : x ++ a :: y = x' ++ a :: y') (h : a ∉ x) (h' : a ∉ x') : x = x' ∧ y = y' := by
  induction x generalizing x' with
  | nil =>
    cases x' with
    | nil => exact ⟨rfl, (List.cons.inj e).2⟩
    | cons b x' =>
      have := (List.cons.inj e).1
      exact absurd (by simp [this]) h'
  | cons b x ih =>
    cases x' with
    | nil =>
      have := (List.cons.inj e).1
      exact absurd (by simp [this]) h
    | cons c x' =>
      obtain ⟨h1, h2⟩ := List.cons.inj e
      obtain ⟨h3, h4⟩ := ih h2 (fun hm => h (by simp [hm])) (fun hm => h' (by simp [hm]))
      exact ⟨by rw [h1, h3], h4⟩

/-- The cut is unique. -/
theorem asm_unique {op cl : α} {ms ms' : List (List α × List α)} {last last' : List α}
    (e : asm op cl ms last = asm op cl ms' last') (h : ∀ m ∈ ms, op ∉ m.1 ∧ cl ∉ m.2) (h' : ∀ m ∈ ms', op ∉ m.1 ∧ cl ∉ m.2)
    (hl : ∀ a b, last = a ++ op :: b → cl ∉ b) (hl' : op ∉ last') : ms = ms' ∧ last = last' := by
  induction ms generalizing ms' with
  | nil =>
    cases ms' with
    | nil => exact ⟨rfl, e⟩
    | cons m ms' =>
      obtain ⟨b, x⟩ := m
      exact absurd (by simp) (hl b _ e)
  | cons m ms ih =>
    obtain ⟨b, x⟩ := m
    cases ms' with
    | nil =>
      rw [asm, asm] at e
      exact absurd (by rw [← e]; simp) hl'
    | cons m' ms' =>
      obtain ⟨b', x'⟩ := m'
      rw [asm, asm] at e
      have k := h (b, x) (by simp)
      have k' := h' (b', x') (by simp)
      obtain ⟨rfl, e2⟩ := first_unique e k.1 k'.1
      obtain ⟨rfl, e3⟩ := first_unique e2 k.2 k'.2
      obtain ⟨rfl, rfl⟩ := ih e3 (fun m hm => h m (by simp [hm])) (fun m hm => h' m (by simp [hm]))
      exact ⟨rfl, rfl⟩

end

theorem assembled_asm (op cl : Char) (ms : List (Str × Str)) (last : Str) : Spec.assembled op cl ms last = asm op cl ms last := by
  induction ms with
  | nil => rfl
  | cons m ms ih =>
    obtain ⟨b, x⟩ := m
    simp [Spec.assembled, asm, ih]

theorem marked_asm (st en : Char) (repr : Nat → Str) (k : Nat) (ms : List (Str × Str)) (last : Str) :
    Spec.marked st en repr k ms last = asmMark (fun k => [' ', st] ++ repr k ++ [en, ' ']) k ms last := by
  induction ms generalizing k with
  | nil => rfl
  | cons m ms ih =>
    obtain ⟨b, x⟩ := m
    simp [Spec.marked, asmMark, ih]

end Model
