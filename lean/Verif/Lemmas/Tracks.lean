import Verif.Lemmas.Shape

/-! # What substitutions preserve

A track says which units are followed (`p`) and which units count as separators (`q`); white space always separates and
is never followed.  `T.g x us y` is the list of followed units, each with whether a separator comes before it (`x` at the
start) and after it (`y` at the end).  `LeB T a b`: `b` has the same followed units as `a`, and wherever a separator
comes before or after in `a`, one does in `b`. -/

namespace Model
open Py

/-- A choice of units to follow and of separators. -/
structure Track where
  p : U → Bool
  q : U → Bool
  sp : ∀ c, isSpace c = true → p (.ch c) = false ∧ q (.ch c) = true

namespace Track
variable (T : Track)

/-- Does the list start with a separator? -/
def s : List U → Bool → Bool
  | [], y => y
  | v :: _, _ => T.q v

/-- Does the list end with a separator? -/
def e : Bool → List U → Bool
  | x, [] => x
  | _, v :: l => e (T.q v) l

/-- The followed units, with whether separators come before and after. -/
def g : Bool → List U → Bool → List (U × Bool × Bool)
  | _, [], _ => []
  | x, u :: l, y => if T.p u then (u, x, T.s l y) :: g (T.q u) l y else g (T.q u) l y

theorem s_append (a b : List U) (y : Bool) : T.s (a ++ b) y = T.s a (T.s b y) := by
  cases a <;> rfl

theorem e_append : ∀ (a b : List U) (x : Bool), T.e x (a ++ b) = T.e (T.e x a) b
  | [], _, _ => rfl
  | u :: a, b, x => by simp only [List.cons_append, e, e_append a b]

theorem g_append : ∀ (a b : List U) (x y : Bool), T.g x (a ++ b) y = T.g x a (T.s b y) ++ T.g (T.e x a) b y
  | [], _, _, _ => rfl
  | u :: a, b, x, y => by
    simp only [List.cons_append, g, s_append, e, g_append a b]
    split <;> rfl

end Track

/-- Same unit, and no separator lost. -/
def Kept (a b : U × Bool × Bool) : Prop := a.1 = b.1 ∧ (a.2.1 = true → b.2.1 = true) ∧ (a.2.2 = true → b.2.2 = true)

theorem Kept.refl (a : U × Bool × Bool) : Kept a a := ⟨rfl, id, id⟩

theorem Kept.trans {a b c : U × Bool × Bool} (h : Kept a b) (h' : Kept b c) : Kept a c :=
  ⟨h.1.trans h'.1, h'.2.1 ∘ h.2.1, h'.2.2 ∘ h.2.2⟩

/-- `b` keeps the followed units of `a` and their separators, in every context. -/
def LeB (T : Track) (a b : List U) : Prop :=
  ∀ x x' y y' : Bool, (x = true → x' = true) → (y = true → y' = true) →
    List.Forall₂ Kept (T.g x a y) (T.g x' b y') ∧ (T.s a y = true → T.s b y' = true) ∧ (T.e x a = true → T.e x' b = true)

/-- The same for complete texts. -/
def LeT (T : Track) (a b : List U) : Prop := List.Forall₂ Kept (T.g true a true) (T.g true b true)

theorem LeB.toT {T : Track} {a b : List U} (h : LeB T a b) : LeT T a b := (h true true true true id id).1

theorem LeT.refl {T : Track} (a : List U) : LeT T a a := List.forall₂_same.mpr fun x _ => Kept.refl x

theorem Kept.forall₂_trans : ∀ {a b c : List (U × Bool × Bool)}, List.Forall₂ Kept a b → List.Forall₂ Kept b c →
    List.Forall₂ Kept a c
  | _, _, _, .nil, .nil => .nil
  | _, _, _, .cons h t, .cons h' t' => .cons (h.trans h') (Kept.forall₂_trans t t')

theorem LeT.trans {T : Track} {a b c : List U} (h : LeT T a b) (h' : LeT T b c) : LeT T a c :=
  Kept.forall₂_trans h h'

theorem LeB.append {T : Track} {a b c d : List U} (h : LeB T a b) (h' : LeB T c d) : LeB T (a ++ c) (b ++ d) := by
  intro x x' y y' hx hy
  have h3 := (h x x' y y' hx hy).2.2
  have h2 := h' (T.e x a) (T.e x' b) y y' h3 hy
  have h1 := h x x' (T.s c y) (T.s d y') hx h2.2.1
  rw [T.g_append, T.g_append, T.s_append, T.s_append, T.e_append, T.e_append]
  exact ⟨List.rel_append h1.1 h2.1, h1.2.1, h2.2.2⟩

theorem LeB.nil {T : Track} : LeB T [] [] := fun _ _ _ _ h h' => ⟨.nil, h', h⟩

theorem LeB.single {T : Track} (u : U) : LeB T [u] [u] := by
  intro x x' y y' hx hy
  simp only [Track.g, Track.s, Track.e]
  split
  · exact ⟨.cons ⟨rfl, hx, hy⟩ .nil, id, id⟩
  · exact ⟨.nil, id, id⟩

theorem LeB.refl {T : Track} : ∀ a : List U, LeB T a a
  | [] => LeB.nil
  | u :: a => (LeB.single u).append (LeB.refl a)

theorem g_ws {T : Track} {v : Str} (h : ∀ c ∈ v, isSpace c = true) (x y : Bool) : T.g x (v.map U.ch) y = [] := by
  induction v generalizing x with
  | nil => rfl
  | cons c v ih =>
    simp only [List.map_cons, Track.g, (T.sp c (h c (by simp))).1]
    exact ih (fun d hd => h d (by simp [hd])) _

/-- White space, or nothing, becomes white space. -/
theorem LeB.ws {T : Track} {v : Str} {c : Char} (hv : ∀ c ∈ v, isSpace c = true) (hc : isSpace c = true) :
    LeB T (v.map U.ch) [.ch c] := by
  intro x x' y y' _ _
  rw [g_ws hv]
  simp only [Track.g, Track.s, Track.e, (T.sp c hc).1, (T.sp c hc).2]
  exact ⟨.nil, fun _ => by simp, fun _ => by simp⟩

/-! ### The meaning of blocks -/

/-- The symbol blocks and what they stand for (tokenizer.py:33-42, 188-192). -/
def symVal : List (Str × Str) :=
  [(c!"_NSD_", c!"."), (c!"_NSGE_", c!" >= "), (c!"_NSLE_", c!" <= "), (c!"_RNSGE_", c!" => "), (c!"_RNSLE_", c!" =< ")]

/-- What a unit stands for; other blocks (markers) stand for themselves. -/
def sem (dict : Dict Str Str) : U → List U
  | .ch c => [.ch c]
  | .bk s =>
    match symVal.lookup s with
    | some v => v.map U.ch
    | none =>
      match Dict.get? dict s with
      | some v => v.map U.ch
      | none => [.bk s]

def semAll (dict : Dict Str Str) (us : List U) : List U := us.flatMap (sem dict)

section
variable (dict : Dict Str Str)

@[simp] theorem semAll_nil : semAll dict [] = [] := rfl
@[simp] theorem semAll_cons (u : U) (us : List U) : semAll dict (u :: us) = sem dict u ++ semAll dict us := by
  simp [semAll]
@[simp] theorem semAll_append (a b : List U) : semAll dict (a ++ b) = semAll dict a ++ semAll dict b := by simp [semAll]
@[simp] theorem semAll_ch (w : Str) : semAll dict (w.map U.ch) = w.map U.ch := by
  induction w with
  | nil => rfl
  | cons c w ih => simp [sem, ih]

end

theorem Rewr.le {T : Track} {P : Str → List U → Prop} {dict : Dict Str Str}
    (h : ∀ w e, P w e → LeB T (w.map U.ch) (semAll dict e)) {a b : List U} (hr : Rewr P a b) :
    LeB T (semAll dict a) (semAll dict b) := by
  induction hr with
  | nil => exact .nil
  | keep u _ ih => simpa using (LeB.refl (sem dict u)).append ih
  | repl hp _ ih => simpa using (h _ _ hp).append ih

theorem Rewr.sem_eq {P : Str → List U → Prop} {dict : Dict Str Str}
    (h : ∀ w e, P w e → semAll dict e = w.map U.ch) {a b : List U} (hr : Rewr P a b) :
    semAll dict b = semAll dict a := by
  induction hr with
  | nil => rfl
  | keep u _ ih => simp [ih]
  | repl hp _ ih => simp [ih, h _ _ hp]

/-! ### Replacement texts -/

/-- One item of a replacement text, as units. -/
inductive TU where
  | grp (n : Nat)
  | un (u : U)
  deriving DecidableEq, Repr

/-- The replacement text. -/
def tplOf : List TU → List Tp
  | [] => []
  | .grp n :: ts => .ref n :: tplOf ts
  | .un u :: ts => u.enc.map Tp.lit ++ tplOf ts

/-- The units of the replacement of a match. -/
def expandU (caps : List (Nat × Str)) : List TU → List U
  | [] => []
  | .grp n :: ts => (capText caps n).map U.ch ++ expandU caps ts
  | .un u :: ts => u :: expandU caps ts

theorem expand_lits (w : Str) (caps : List (Nat × Str)) (v : Str) : expand w caps (v.map Tp.lit) = v := by
  induction v with
  | nil => rfl
  | cons c v ih =>
    simp only [List.map_cons, expand, List.flatMap_cons] at ih ⊢
    rw [ih]
    rfl

theorem expand_append (w : Str) (caps : List (Nat × Str)) (a b : List Tp) :
    expand w caps (a ++ b) = expand w caps a ++ expand w caps b := by simp [expand]

theorem expand_tplOf (w : Str) (caps : List (Nat × Str)) : ∀ ts : List TU, TU.grp 0 ∉ ts →
    expand w caps (tplOf ts) = encode (expandU caps ts)
  | [], _ => rfl
  | .grp n :: ts, h => by
    have hn : n ≠ 0 := by rintro rfl; simp at h
    have ih := expand_tplOf w caps ts (fun h' => h (by simp [h']))
    have : expand w caps (tplOf (.grp n :: ts)) = capText caps n ++ expand w caps (tplOf ts) := by
      simp [tplOf, expand, hn]
    rw [this, ih, expandU, encode_append, encode_ch]
  | .un u :: ts, h => by
    have ih := expand_tplOf w caps ts (fun h' => h (by simp [h']))
    rw [tplOf, expand_append, expand_lits, ih, expandU, encode_cons]

/-- The item is white space. -/
def TU.isWs : TU → Bool
  | .un (.ch c) => isSpace c
  | _ => false

/-- The item stands for the part of the match. -/
def TU.same : TU → It → Bool
  | .grp n, .grp m => n == m
  | .un (.ch c), .lit d => c == d
  | .un (.bk s), .lit d => symVal.lookup s == some [d]
  | _, _ => false

theorem TU.same_eq {dict : Dict Str Str} {caps : List (Nat × Str)} {t : TU} {i : It} (h : t.same i = true)
    {is : List It} {w : Str} (hp : Pieces caps (i :: is) w) : ∃ v w', w = v ++ w' ∧ Pieces caps is w' ∧
      ∀ ts, semAll dict (expandU caps (t :: ts)) = v.map U.ch ++ semAll dict (expandU caps ts) := by
  cases hp with
  | ws _ _ => cases t with
    | grp n => simp [TU.same] at h
    | un u => cases u <;> simp [TU.same] at h
  | @lit d _ w hp =>
    refine ⟨[d], w, rfl, hp, fun ts => ?_⟩
    cases t with
    | grp n => simp [TU.same] at h
    | un u =>
      cases u with
      | ch c =>
        have : c = d := by simpa [TU.same] using h
        subst this
        simp [expandU, sem]
      | bk s =>
        have : symVal.lookup s = some [d] := by simpa only [TU.same, beq_iff_eq] using h
        simp only [expandU, semAll_cons, sem, this]
  | @grp m _ w hp =>
    refine ⟨_, w, rfl, hp, fun ts => ?_⟩
    cases t with
    | grp n =>
      have : n = m := by simpa [TU.same] using h
      subst this
      simp [expandU]
    | un u => cases u <;> simp [TU.same] at h

/-- The replacement repeats the parts of the match in order, with white space added. -/
def alignW : List TU → List It → Bool
  | [], is => is.isEmpty
  | t :: ts, [] => t.isWs && alignW ts []
  | t :: ts, i :: is =>
    if t.isWs then (if i = .ws then alignW ts is else alignW ts (i :: is))
    else t.same i && alignW ts is

theorem TU.isWs_le {T : Track} {dict : Dict Str Str} {caps : List (Nat × Str)} {t : TU} (ht : t.isWs = true) {v : Str}
    {l : List U} (hv : ∀ c ∈ v, isSpace c = true) {ts : List TU} (h : LeB T l (semAll dict (expandU caps ts))) :
    LeB T (v.map U.ch ++ l) (semAll dict (expandU caps (t :: ts))) := by
  cases t with
  | grp n => simp [TU.isWs] at ht
  | un u =>
    cases u with
    | bk s => simp [TU.isWs] at ht
    | ch c =>
      simp only [expandU, semAll_cons, sem]
      exact (LeB.ws hv ht).append h

theorem alignW_le {T : Track} {dict : Dict Str Str} {caps : List (Nat × Str)} (ts : List TU) : ∀ (is : List It) (w : Str),
    Pieces caps is w → alignW ts is = true → LeB T (w.map U.ch) (semAll dict (expandU caps ts)) := by
  induction ts with
  | nil =>
    intro is w hp ha
    obtain rfl : is = [] := by simpa [alignW] using ha
    cases hp
    exact .nil
  | cons t ts ih =>
    intro is w hp ha
    cases is with
    | nil =>
      rw [alignW, Bool.and_eq_true] at ha
      have := TU.isWs_le (T := T) (dict := dict) (caps := caps) ha.1 (v := []) (by simp) (ih [] w hp ha.2)
      simpa using this
    | cons i is =>
      rw [alignW] at ha
      by_cases ht : t.isWs = true
      · rw [if_pos ht] at ha
        by_cases hi : i = .ws
        · subst hi
          rw [if_pos rfl] at ha
          cases hp with
          | ws hv hp =>
            rw [List.map_append]
            exact TU.isWs_le ht hv (ih is _ hp ha)
        · rw [if_neg hi] at ha
          have := TU.isWs_le (T := T) (dict := dict) (caps := caps) ht (v := []) (by simp) (ih _ w hp ha)
          simpa using this
      · rw [if_neg ht, Bool.and_eq_true] at ha
        obtain ⟨v, w', rfl, hp', he⟩ := TU.same_eq (dict := dict) ha.1 hp
        rw [he, List.map_append]
        exact (LeB.refl _).append (ih is w' hp' ha.2)

/-- The replacement repeats the parts of the match exactly. -/
def alignE : List TU → List It → Bool
  | [], is => is.isEmpty
  | _ :: _, [] => false
  | t :: ts, i :: is => t.same i && alignE ts is

theorem alignE_eq {dict : Dict Str Str} {caps : List (Nat × Str)} (ts : List TU) : ∀ (is : List It) (w : Str),
    Pieces caps is w → alignE ts is = true → semAll dict (expandU caps ts) = w.map U.ch := by
  induction ts with
  | nil =>
    intro is w hp ha
    obtain rfl : is = [] := by simpa [alignE] using ha
    cases hp
    rfl
  | cons t ts ih =>
    intro is w hp ha
    cases is with
    | nil => cases ha
    | cons i is =>
      rw [alignE, Bool.and_eq_true] at ha
      obtain ⟨v, w', rfl, hp', he⟩ := TU.same_eq (dict := dict) ha.1 hp
      rw [he, List.map_append, ih is w' hp' ha.2]

/-- Units other than white space. -/
def U.solid : U → Bool
  | .ch c => !isSpace c
  | .bk _ => true

/-- The units of a list other than white space. -/
def solids (us : List U) : List U := us.filter U.solid

/-- The replacement repeats the parts of the match, up to white space. -/
def alignS (ts : List TU) (is : List It) : Bool :=
  alignE (ts.filter fun | .un (.ch c) => !isSpace c | _ => true) (is.filter fun | .ws => false | _ => true)

/-! ### Words -/

/-- Auxiliary for `splitU`: units of the current word in reverse. -/
def splitUAux : List U → List U → List (List U)
  | [], cur => if cur.isEmpty then [] else [cur.reverse]
  | u :: us, cur =>
    if u.solid then splitUAux us (u :: cur)
    else (if cur.isEmpty then splitUAux us [] else cur.reverse :: splitUAux us [])

/-- Words of a list of units. -/
def splitU (us : List U) : List (List U) := splitUAux us []

/-- Units without white space inside. -/
def U.Tight : U → Prop
  | .ch _ => True
  | .bk s => s ≠ [] ∧ ∀ c ∈ s, isSpace c = false

theorem encode_reverse_isEmpty {cur : List U} (h : ∀ u ∈ cur, u.enc ≠ []) :
    (encode cur.reverse).isEmpty = cur.isEmpty := by
  cases cur with
  | nil => rfl
  | cons u cur =>
    have := h u (by simp)
    simp [this]

theorem splitWs_encode_aux : ∀ (us cur : List U), (∀ u ∈ us, u.Tight) → (∀ u ∈ cur, u.enc ≠ []) →
    splitWsAux (encode us) (encode cur.reverse).reverse = (splitUAux us cur).map encode
  | [], cur, _, hc => by
    have := encode_reverse_isEmpty hc
    simp only [encode_nil, splitWsAux, splitUAux, List.isEmpty_reverse, this, List.reverse_reverse]
    split <;> simp
  | u :: us, cur, ht, hc => by
    have ht' : ∀ u ∈ us, u.Tight := fun v hv => ht v (by simp [hv])
    have hkey : ∀ (v : U), v.enc ≠ [] → (∀ c ∈ v.enc, isSpace c = false) →
        splitWsAux (v.enc ++ encode us) (encode cur.reverse).reverse = (splitUAux us (v :: cur)).map encode := by
      intro v hv hv'
      rw [splitWsAux_word v.enc _ _ hv', ← splitWs_encode_aux us (v :: cur) ht' (by
        intro x hx
        rcases List.mem_cons.mp hx with rfl | hx
        · exact hv
        · exact hc x hx)]
      simp
    cases u with
    | bk s =>
      have hs : s ≠ [] ∧ ∀ c ∈ s, isSpace c = false := ht (.bk s) (by simp)
      rw [encode_cons]
      simp only [splitUAux, U.solid, if_true]
      exact hkey (.bk s) hs.1 hs.2
    | ch c =>
      rw [encode_cons]
      by_cases h : isSpace c = true
      · simp only [splitUAux, U.solid, h, Bool.not_true, Bool.false_eq_true, if_false]
        have e : U.enc (.ch c) ++ encode us = c :: encode us := rfl
        have := encode_reverse_isEmpty hc
        rw [e, splitWsAux]
        simp only [h, if_true, List.isEmpty_reverse, this, List.reverse_reverse]
        have ih := splitWs_encode_aux us [] ht' (by simp)
        simp only [List.reverse_nil, encode_nil] at ih
        rw [ih]
        split <;> simp
      · simp only [splitUAux, U.solid, h, Bool.not_false, if_true]
        exact hkey (.ch c) (by simp [U.enc]) (by simpa [U.enc] using h)

/-- `text.split()` of a text of units. -/
theorem splitWs_encode {us : List U} (h : ∀ u ∈ us, u.Tight) : splitWs (encode us) = (splitU us).map encode := by
  have := splitWs_encode_aux us [] h (by simp)
  simpa [splitWs, splitU] using this

theorem mem_splitUAux : ∀ (us cur : List U), ∀ w ∈ splitUAux us cur, ∀ u ∈ w, u ∈ us ∨ u ∈ cur
  | [], cur, w, hw, u, hu => by
    simp only [splitUAux] at hw
    split at hw
    · cases hw
    · simp only [List.mem_singleton] at hw
      subst hw
      exact .inr (by simpa using hu)
  | v :: us, cur, w, hw, u, hu => by
    simp only [splitUAux] at hw
    split at hw
    · rcases mem_splitUAux us (v :: cur) w hw u hu with h | h
      · exact .inl (by simp [h])
      · rcases List.mem_cons.mp h with rfl | h
        · exact .inl (by simp)
        · exact .inr h
    · split at hw
      · rcases mem_splitUAux us [] w hw u hu with h | h
        · exact .inl (by simp [h])
        · cases h
      · rcases List.mem_cons.mp hw with rfl | hw
        · exact .inr (by simpa using hu)
        · rcases mem_splitUAux us [] w hw u hu with h | h
          · exact .inl (by simp [h])
          · cases h

theorem mem_splitU {us w : List U} (hw : w ∈ splitU us) {u : U} (hu : u ∈ w) : u ∈ us :=
  (mem_splitUAux us [] w hw u hu).resolve_right (by simp)

/-- The followed units, word by word. -/
theorem g_splitUAux {T : Track} {dict : Dict Str Str} : ∀ (us cur : List U),
    T.g true (semAll dict (cur.reverse ++ us)) true = (splitUAux us cur).flatMap fun w => T.g true (semAll dict w) true
  | [], cur => by
    simp only [splitUAux, List.append_nil]
    cases cur with
    | nil => rfl
    | cons c cur => simp
  | u :: us, cur => by
    simp only [splitUAux]
    by_cases h : u.solid = true
    · rw [if_pos h, ← g_splitUAux us (u :: cur)]
      simp
    · rw [if_neg h]
      cases u with
      | bk s => simp [U.solid] at h
      | ch c =>
        have hc : isSpace c = true := by simpa [U.solid] using h
        have ih := g_splitUAux (T := T) (dict := dict) us []
        simp only [List.reverse_nil, List.nil_append] at ih
        have e : T.g true (semAll dict (cur.reverse ++ .ch c :: us)) true =
            T.g true (semAll dict cur.reverse) true ++ T.g true (semAll dict us) true := by
          rw [semAll_append, semAll_cons, Track.g_append]
          simp only [sem, List.singleton_append, Track.g, Track.s, (T.sp c hc).1, (T.sp c hc).2]
          rfl
        rw [e, ih]
        cases cur with
        | nil => rfl
        | cons d cur => simp

theorem g_splitU {T : Track} {dict : Dict Str Str} (us : List U) :
    T.g true (semAll dict us) true = (splitU us).flatMap fun w => T.g true (semAll dict w) true := by
  have := g_splitUAux (T := T) (dict := dict) us []
  simpa [splitU] using this

/-- `' '.join(words)` -/
def joinU : List (List U) → List U
  | [] => []
  | [w] => w
  | w :: ws => w ++ .ch ' ' :: joinU ws

theorem encode_joinU : ∀ ws : List (List U), encode (joinU ws) = join c!" " (ws.map encode)
  | [] => rfl
  | [w] => rfl
  | w :: v :: ws => by
    have := encode_joinU (v :: ws)
    have e : joinU (w :: v :: ws) = w ++ .ch ' ' :: joinU (v :: ws) := rfl
    rw [e, encode_append, encode_cons, this]
    have e2 : join c!" " ((w :: v :: ws).map encode) = encode w ++ c!" " ++ join c!" " ((v :: ws).map encode) := rfl
    rw [e2]
    simp [U.enc]

theorem mem_joinU {u : U} : ∀ {ws : List (List U)}, u ∈ joinU ws → u = .ch ' ' ∨ ∃ w ∈ ws, u ∈ w
  | [], h => by simp [joinU] at h
  | [w], h => .inr ⟨w, by simp, h⟩
  | w :: v :: ws, h => by
    rw [joinU] at h
    · rcases List.mem_append.mp h with h | h
      · exact .inr ⟨w, by simp, h⟩
      · rcases List.mem_cons.mp h with rfl | h
        · exact .inl rfl
        · rcases mem_joinU h with h | ⟨x, hx, h⟩
          · exact .inl h
          · exact .inr ⟨x, by simp at hx ⊢; tauto, h⟩
    · simp

theorem g_joinU {T : Track} {dict : Dict Str Str} : ∀ ws : List (List U),
    T.g true (semAll dict (joinU ws)) true = ws.flatMap fun w => T.g true (semAll dict w) true
  | [] => rfl
  | [w] => by simp [joinU]
  | w :: v :: ws => by
    have ih := g_joinU (T := T) (dict := dict) (v :: ws)
    rw [joinU]
    · rw [semAll_append, semAll_cons, Track.g_append, List.flatMap_cons, ← ih]
      simp only [sem, List.singleton_append, Track.g, Track.s, (T.sp ' ' (by decide)).1, (T.sp ' ' (by decide)).2]
      rfl
    · simp

end Model
