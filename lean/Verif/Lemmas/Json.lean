import Verif.Spec.Json
import Verif.Lemmas.LmFile

/-! What `json.dumps` writes is read back by `Spec.readJson`. -/

namespace Model
open Py Spec

theorem readString_plain {c : Char} (h1 : c ≠ '"') (h2 : c ≠ '\\') (h3 : ¬ c.toNat < 32) (r : Str) :
    readString (c :: r) = (readString r).map fun x => (c :: x.1, x.2) := by
  rw [readString.eq_def]
  split
  · cases ‹c :: r = []›
  · rename_i h; injection h with h; exact absurd h h1
  · rename_i h; injection h with h; exact absurd h h2
  · rename_i h; injection h with h; exact absurd h h2
  · rename_i h
    injection h with ha hb
    subst ha hb
    rw [if_neg h3]
    cases readString r <;> rfl

theorem readString_hex {a b c d : Char} {x y z w : Nat} (ha : hexValue a = some x) (hb : hexValue b = some y)
    (hc : hexValue c = some z) (hd : hexValue d = some w) (r : Str) :
    readString ('\\' :: 'u' :: a :: b :: c :: d :: r) =
      (readString r).map fun t => (Char.ofNat (x * 4096 + y * 256 + z * 16 + w) :: t.1, t.2) := by
  rw [readString, ha, hb, hc, hd]
  cases readString r <;> rfl

theorem readString_two {e c : Char} (he : e ≠ 'u') (hc : unescape e = some c) (r : Str) :
    readString ('\\' :: e :: r) = (readString r).map fun t => (c :: t.1, t.2) := by
  rw [readString.eq_def]
  split
  · cases ‹'\\' :: e :: r = []›
  · rename_i h; injection h with h; exact absurd h (by decide)
  · rename_i h; injection h with _ h; injection h with h; exact absurd h he
  · rename_i h
    injection h with _ h
    injection h with ha hb
    subst ha hb
    rw [hc]
    cases readString r <;> rfl
  · rename_i h1 h2
    injection h2 with h2 h3
    subst h2 h3
    exact absurd rfl (h1 e r rfl)

theorem hexValue_low {n : Nat} (h : n < 16) : hexValue (Json.hexDigit n) = some n := by
  have : ∀ n : Fin 16, hexValue (Json.hexDigit n) = some n.val := by decide
  exact this ⟨n, h⟩

theorem readString_escape (c : Char) (r : Str) :
    readString (Json.escape c ++ r) = (readString r).map fun x => (c :: x.1, x.2) := by
  unfold Json.escape
  split_ifs with h1 h2 h3 h4 h5 h6 h7 h8
  · subst h1; exact readString_two (by decide) (by decide) r
  · subst h2; exact readString_two (by decide) (by decide) r
  · subst h3; exact readString_two (by decide) (by decide) r
  · subst h4; exact readString_two (by decide) (by decide) r
  · subst h5; exact readString_two (by decide) (by decide) r
  · have : c = Char.ofNat 8 := by rw [← h6, Char.ofNat_toNat]
    subst this; exact readString_two (by decide) (by decide) r
  · have : c = Char.ofNat 12 := by rw [← h7, Char.ofNat_toNat]
    subst this; exact readString_two (by decide) (by decide) r
  · show readString ('\\' :: 'u' :: '0' :: '0' :: Json.hexDigit (c.toNat / 16) :: Json.hexDigit (c.toNat % 16) :: r) = _
    rw [readString_hex (x := 0) (y := 0) (by decide) (by decide) (hexValue_low (by omega)) (hexValue_low (by omega))]
    have : 0 * 4096 + 0 * 256 + c.toNat / 16 * 16 + c.toNat % 16 = c.toNat := by omega
    rw [this, Char.ofNat_toNat]
  · exact readString_plain h2 h1 h8 r

theorem readString_quote (s r : Str) : readString (s.flatMap Json.escape ++ '"' :: r) = some (s, r) := by
  induction s with
  | nil => simp [readString]
  | cons c s ih => rw [List.flatMap_cons, List.append_assoc, readString_escape, ih]; rfl

theorem takeWhile_digits {t r : Str} (ht : ∀ c ∈ t, c.isDigit = true) (hr : ∀ c, r.head? = some c → c.isDigit = false) :
    (t ++ r).takeWhile Char.isDigit = t ∧ (t ++ r).dropWhile Char.isDigit = r := by
  induction t with
  | nil =>
    cases r with
    | nil => exact ⟨rfl, rfl⟩
    | cons c r =>
      have := hr c rfl
      simp [List.takeWhile_cons, List.dropWhile_cons, this]
  | cons c t ih =>
    have h := ih fun d hd => ht d (by simp [hd])
    have hc := ht c (by simp)
    simp [List.takeWhile_cons, List.dropWhile_cons, hc, h.1, h.2]

theorem readNat_repr (n : Nat) {r : Str} (hr : ∀ c, r.head? = some c → c.isDigit = false) :
    readNat (Nat.toDigits 10 n ++ r) = some (n, r) := by
  obtain ⟨h1, h2⟩ := takeWhile_digits (t := Nat.toDigits 10 n) (natRepr_isDigit n) hr
  unfold readNat
  rw [h1, h2, if_neg (show Nat.toDigits 10 n ≠ [] from natRepr_ne_nil n)]
  have := ofDigitChars_natRepr n
  unfold Nat.ofDigitChars natRepr at this
  rw [this]

theorem toDigits_head (n : Nat) : ∃ c t, Nat.toDigits 10 n = c :: t ∧ c.isDigit = true := by
  obtain ⟨c, t, h⟩ := List.exists_cons_of_ne_nil (natRepr_ne_nil n)
  exact ⟨c, t, h, natRepr_isDigit n c (by rw [h]; simp)⟩

theorem readInt_repr (i : Int) {r : Str} (hr : ∀ c, r.head? = some c → c.isDigit = false) :
    readInt (Json.intRepr i ++ r) = some (i, r) := by
  cases i with
  | ofNat n =>
    have := readNat_repr n hr
    obtain ⟨c, t, h, hc⟩ := toDigits_head n
    rw [show Json.intRepr (.ofNat n) = Nat.toDigits 10 n from rfl, readInt.eq_def]
    split
    · rename_i h'
      rw [h] at h'
      injection h' with h' _
      subst h'
      exact absurd hc (by decide)
    · rw [this]; rfl
  | negSucc n =>
    have := readNat_repr (n + 1) hr
    show (readNat (Nat.toDigits 10 (n + 1) ++ r)).map _ = _
    rw [this]
    rfl

/-- First characters of what is written. -/
theorem dumps_head (v : Json) : ∃ c t, v.dumps = c :: t ∧ c ≠ ' ' ∧ c ≠ '\t' ∧ c ≠ '\n' ∧ c ≠ '\r' ∧ c ≠ ']' ∧ c ≠ '}' := by
  cases v with
  | str s => exact ⟨'"', _, by rw [Json.dumps, Json.quote], by decide⟩
  | arr s => exact ⟨'[', _, by rw [Json.dumps], by decide⟩
  | obj s => exact ⟨'{', _, by rw [Json.dumps], by decide⟩
  | int i =>
    rw [Json.dumps]
    cases i with
    | ofNat n =>
      obtain ⟨c, t, h, hc⟩ := toDigits_head n
      refine ⟨c, t, h, ?_⟩
      refine ⟨?_, ?_, ?_, ?_, ?_, ?_⟩ <;> rintro rfl <;> exact absurd hc (by decide)
    | negSucc n => exact ⟨'-', _, rfl, by decide⟩

theorem unblank_cons {c : Char} (h : c ≠ ' ' ∧ c ≠ '\t' ∧ c ≠ '\n' ∧ c ≠ '\r') (t : Str) : unblank (c :: t) = c :: t := by
  unfold unblank
  rw [List.dropWhile_cons_of_neg]
  simp [h]

theorem unblank_blank (t : Str) : unblank (' ' :: t) = unblank t := by
  unfold unblank
  rw [List.dropWhile_cons_of_pos]
  simp

theorem unblank_dumps (v : Json) (r : Str) : unblank (v.dumps ++ r) = v.dumps ++ r := by
  obtain ⟨c, t, h, h1, h2, h3, h4, -, -⟩ := dumps_head v
  rw [h, List.cons_append, unblank_cons ⟨h1, h2, h3, h4⟩]

theorem readValue_blank (n : Nat) (s : Str) : readValue n (' ' :: s) = readValue n s := by
  cases n with
  | zero => rw [readValue, readValue]
  | succ n => rw [readValue, readValue, unblank_blank]

theorem readItems_blank (n : Nat) (s : Str) : readItems n (' ' :: s) = readItems n s := by
  cases n with
  | zero => rw [readItems, readItems]
  | succ n => rw [readItems, readItems, readValue_blank]

theorem readMembers_blank (n : Nat) (s : Str) : readMembers n (' ' :: s) = readMembers n s := by
  cases n with
  | zero => rw [readMembers, readMembers]
  | succ n => rw [readMembers, readMembers, unblank_blank]

theorem dumpsItems_head (v : Json) (l : List Json) : ∃ t, Json.dumpsItems (v :: l) = v.dumps ++ t := by
  cases l with
  | nil => exact ⟨[], by rw [Json.dumpsItems]; simp⟩
  | cons w l => exact ⟨_, by rw [Json.dumpsItems, List.append_assoc]⟩

/-- A value is read back, whatever follows, if it is not a digit. -/
def Back (v : Json) : Prop := ∀ (n : Nat) (r : Str), 2 * v.dumps.length ≤ n → (∀ c, r.head? = some c → c.isDigit = false) →
  readValue n (v.dumps ++ r) = some (v, r)

theorem items_back : ∀ (l : List Json), l ≠ [] → (∀ v ∈ l, Back v) → ∀ (n : Nat) (r : Str),
    2 * (Json.dumpsItems l).length < n → readItems n (Json.dumpsItems l ++ ']' :: r) = some (l, r)
  | [], h, _, _, _, _ => absurd rfl h
  | [v], _, hv, 0, r, hn => by omega
  | [v], _, hv, n + 1, r, hn => by
    rw [Json.dumpsItems] at hn ⊢
    rw [readItems, hv v (by simp) n (']' :: r) (by omega) (by simp)]
    simp [unblank_cons]
  | v :: w :: l, _, hv, 0, r, hn => by omega
  | v :: w :: l, _, hv, n + 1, r, hn => by
    rw [Json.dumpsItems] at hn ⊢
    simp only [List.length_append, List.length_cons, List.length_nil] at hn
    rw [List.append_assoc, List.append_assoc, readItems, hv v (by simp) n _ (by omega) (by simp)]
    have ih := items_back (w :: l) (by simp) (fun x hx => hv x (by simp at hx ⊢; tauto)) n r (by omega)
    simp only [List.cons_append, List.nil_append, bind, Option.bind,
      unblank_cons (c := ',') (by decide), readItems_blank, ih]
    rfl

theorem members_back : ∀ (l : List (Str × Json)), l ≠ [] → (∀ m ∈ l, Back m.2) → ∀ (n : Nat) (r : Str),
    2 * (Json.dumpsMembers l).length < n → readMembers n (Json.dumpsMembers l ++ '}' :: r) = some (l, r)
  | [], h, _, _, _, _ => absurd rfl h
  | [(k, v)], _, hv, 0, r, hn => by omega
  | [(k, v)], _, hv, n + 1, r, hn => by
    rw [Json.dumpsMembers] at hn ⊢
    simp only [List.length_append, List.length_cons, List.length_nil] at hn
    rw [readMembers]
    simp only [Json.quote, List.cons_append, List.nil_append, List.append_assoc, unblank_cons (c := '"') (by decide),
      readString_quote, bind, Option.bind, unblank_cons (c := ':') (by decide), readValue_blank]
    rw [hv (k, v) (by simp) n ('}' :: r) (by simp only; omega) (by simp)]
    simp [unblank_cons]
  | (k, v) :: m :: l, _, hv, 0, r, hn => by omega
  | (k, v) :: m :: l, _, hv, n + 1, r, hn => by
    rw [Json.dumpsMembers] at hn ⊢
    simp only [List.length_append, List.length_cons, List.length_nil] at hn
    have ih := members_back (m :: l) (by simp) (fun x hx => hv x (by simp at hx ⊢; tauto)) n r (by omega)
    rw [readMembers]
    simp only [Json.quote, List.cons_append, List.nil_append, List.append_assoc, unblank_cons (c := '"') (by decide),
      readString_quote, bind, Option.bind, unblank_cons (c := ':') (by decide), readValue_blank]
    rw [hv (k, v) (by simp) n _ (by simp only; omega) (by simp)]
    simp only [unblank_cons (c := ',') (by decide), readMembers_blank, ih]
    rfl

theorem dumpsMembers_head (m : Str × Json) (l : List (Str × Json)) : ∃ t, Json.dumpsMembers (m :: l) = '"' :: t := by
  obtain ⟨k, v⟩ := m
  cases l with
  | nil => exact ⟨_, by rw [Json.dumpsMembers, Json.quote, List.append_assoc]; rfl⟩
  | cons w l => exact ⟨_, by rw [Json.dumpsMembers, Json.quote]; simp only [List.append_assoc]; rfl⟩

theorem back_str (s : Str) : Back (.str s) := by
  intro n r hn _
  rw [Json.dumps, Json.quote] at hn ⊢
  cases n with
  | zero => simp at hn
  | succ n =>
    rw [readValue]
    simp only [List.cons_append, List.append_assoc, List.nil_append, unblank_cons (c := '"') (by decide), readString_quote]
    rfl

theorem back_int (i : Int) : Back (.int i) := by
  intro n r hn hr
  obtain ⟨c, t, h, h1, h2, h3, h4, -, -⟩ := dumps_head (.int i)
  cases n with
  | zero => rw [h] at hn; simp at hn
  | succ n =>
    rw [readValue, unblank_dumps]
    have hb := readInt_repr i hr
    rw [Json.dumps] at h ⊢
    have hd : c = '-' ∨ c.isDigit = true := by
      cases i with
      | ofNat n =>
        obtain ⟨c', t', h', hc'⟩ := toDigits_head n
        rw [show Json.intRepr (.ofNat n) = Nat.toDigits 10 n from rfl, h'] at h
        injection h with h _
        subst h
        exact Or.inr hc'
      | negSucc n =>
        injection h with h _
        exact Or.inl h.symm
    split
    · rename_i h'; rw [h] at h'; injection h' with h' _; subst h'; exact absurd hd (by decide)
    · rename_i h'; rw [h] at h'; injection h' with h' _; subst h'; exact absurd hd (by decide)
    · rename_i h'; rw [h] at h'; injection h' with h' _; subst h'; exact absurd hd (by decide)
    · rw [hb]; rfl

theorem back_arr (l : List Json) (hl : ∀ v ∈ l, Back v) : Back (.arr l) := by
  intro n r hn _
  rw [Json.dumps] at hn ⊢
  cases n with
  | zero => simp at hn
  | succ n =>
    simp only [List.length_cons, List.length_append, List.length_nil] at hn
    rw [readValue]
    simp only [List.cons_append, List.append_assoc, List.nil_append, unblank_cons (c := '[') (by decide)]
    cases l with
    | nil => rw [Json.dumpsItems, List.nil_append, unblank_cons (by decide)]; rfl
    | cons v l =>
      obtain ⟨t, ht⟩ := dumpsItems_head v l
      obtain ⟨c, t', h, h1, h2, h3, h4, h5, -⟩ := dumps_head v
      have hu : unblank (Json.dumpsItems (v :: l) ++ ']' :: r) = c :: (t' ++ (t ++ ']' :: r)) := by
        rw [ht, List.append_assoc, unblank_dumps, h, List.cons_append]
      split
      · rename_i h'; rw [hu] at h'; injection h' with h' _; exact absurd h' h5
      · rw [items_back _ (by simp) hl n r (by omega)]; rfl

theorem back_obj (l : List (Str × Json)) (hl : ∀ m ∈ l, Back m.2) : Back (.obj l) := by
  intro n r hn _
  rw [Json.dumps] at hn ⊢
  cases n with
  | zero => simp at hn
  | succ n =>
    simp only [List.length_cons, List.length_append, List.length_nil] at hn
    rw [readValue]
    simp only [List.cons_append, List.append_assoc, List.nil_append, unblank_cons (c := '{') (by decide)]
    cases l with
    | nil => rw [Json.dumpsMembers, List.nil_append, unblank_cons (by decide)]; rfl
    | cons v l =>
      obtain ⟨t, ht⟩ := dumpsMembers_head v l
      have hu : unblank (Json.dumpsMembers (v :: l) ++ '}' :: r) = '"' :: (t ++ '}' :: r) := by
        rw [ht, List.cons_append, unblank_cons (by decide)]
      split
      · rename_i h'; rw [hu] at h'; injection h' with h' _; exact absurd h' (by decide)
      · rw [members_back _ (by simp) hl n r (by omega)]; rfl

mutual
theorem back : ∀ v : Json, Back v
  | .str s => back_str s
  | .int i => back_int i
  | .arr l => back_arr l (back_items l)
  | .obj l => back_obj l (back_members l)

theorem back_items : ∀ (l : List Json), ∀ v ∈ l, Back v
  | [] => by simp
  | v :: l => by
    intro w hw
    rcases List.mem_cons.mp hw with h | h
    · rw [h]; exact back v
    · exact back_items l w h

theorem back_members : ∀ (l : List (Str × Json)), ∀ m ∈ l, Back m.2
  | [] => by simp
  | (k, v) :: l => by
    intro w hw
    rcases List.mem_cons.mp hw with h | h
    · rw [h]; exact back v
    · exact back_members l w h
end

theorem readJson_dumps (v : Json) : readJson v.dumps = some v := by
  unfold readJson
  have := back v (2 * v.dumps.length) [] le_rfl (by simp)
  rw [List.append_nil] at this
  rw [this]
  simp [unblank]

end Model
