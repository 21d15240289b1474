import Verif.Model.Warnings
import Verif.Lemmas.Json
import Verif.Lemmas.Ngrams
import Verif.Lemmas.Smoothers
import Verif.Lemmas.TrainingData
import Verif.Props.LabelledData

/-! C101: the warnings of a labelled sentence as a JSON text; leaves. -/

namespace Props
open Py Model Spec

/-- A call of `register_warning`: token index, comment, tokens in focus. -/
abbrev WarningCall := Int × Str × List Int

/-- The warnings after some calls. -/
def registered (calls : List WarningCall) : Warnings := calls.foldl (fun w x => w.register x.1 x.2.1 x.2.2) []

/-- A comment with the tokens in focus as JSON. -/
def warningOf (x : WarningCall) : Json := .obj [(c!"comment", .str x.2.1), (c!"focusIdxs", .arr (x.2.2.map .int))]

theorem registered_eq (calls : List WarningCall) : registered calls =
    (firstSeen (calls.map Prod.fst)).map fun i => (i, (calls.filter fun x => x.1 = i).map Prod.snd) := by
  induction calls using List.reverseRecOn with
  | nil => rfl
  | append_singleton l x ih =>
    have h : registered (l ++ [x]) = (registered l).register x.1 x.2.1 x.2.2 := by
      unfold registered
      rw [List.foldl_append]
      rfl
    have hn := nodup_firstSeen (l.map Prod.fst)
    rw [h, ih, Warnings.register, appendToDictList_eq, List.map_append, List.map_cons, List.map_nil, firstSeen_snoc]
    have hget : ∀ (ks : List Int) (f : Int → List (Str × List Int)) (k : Int), (Dict.get? (ks.map fun i => (i, f i)) k) =
        if k ∈ ks then some (f k) else none := by
      intro ks f k
      induction ks with
      | nil => simp [Dict.get?]
      | cons a ks ih' =>
        rw [List.map_cons, Dict.get?, ih']
        by_cases hk : a = k
        · subst hk; simp
        · simp [hk, Ne.symm hk]
    have hset : ∀ (d : Warnings) (k : Int) (v : List (Str × List Int)), k ∉ d.keys → Dict.set d k v = d ++ [(k, v)] := by
      intro d k v
      induction d with
      | nil => simp [Dict.set]
      | cons a d ih' =>
        intro hk
        simp only [Dict.keys, List.map_cons, List.mem_cons, not_or] at hk
        rw [Dict.set, if_neg (Ne.symm hk.1), ih' hk.2, List.cons_append]
    rw [hget]
    by_cases hm : x.1 ∈ firstSeen (l.map Prod.fst)
    · rw [if_pos hm, if_pos hm, dict_set_map _ _ _ _ hn hm]
      apply List.map_congr_left
      intro i _
      by_cases hi : i = x.1
      · subst hi; simp [List.filter_append]
      · simp [List.filter_append, hi, Ne.symm hi]
    · rw [if_neg hm, if_neg hm, hset _ _ _ (by simpa [Dict.keys, Function.comp_def] using hm), List.map_append]
      congr 1
      · apply List.map_congr_left
        intro i hi
        have : x.1 ≠ i := fun e => hm (e ▸ hi)
        simp [List.filter_append, this]
      · have : l.filter (fun y => decide (y.1 = x.1)) = [] := by
          rw [List.filter_eq_nil_iff]
          intro y hy e
          rw [decide_eq_true_eq] at e
          exact hm ((mem_firstSeen _ _).mpr (e ▸ List.mem_map_of_mem hy))
        simp [List.filter_append, this]

/-- **C101.** There is a JSON text as soon as a warning was registered. -/
theorem C101_none (calls : List WarningCall) : (registered calls).json = none ↔ calls = [] := by
  unfold Warnings.json
  rw [registered_eq]
  cases calls with
  | nil => simp [firstSeen]
  | cons x l =>
    have : x.1 ∈ firstSeen ((x :: l).map Prod.fst) := (mem_firstSeen _ _).mpr (by simp)
    have hne : firstSeen ((x :: l).map Prod.fst) ≠ [] := List.ne_nil_of_mem this
    rw [List.map_cons] at hne
    simp [hne]

/-- **C101.** The text is read, by any reader of JSON, as an object with one member per token in the order of its first
warning. Its key is the index of the token and its value lists the warnings of the token in order, with their comments,
whatever characters they contain, and focus. -/
theorem C101_read (calls : List WarningCall) (text : Str) (h : (registered calls).json = some text) :
    ∃ members, readJson text = some (.obj members) ∧ List.Forall₂ (fun i (m : Str × Json) =>
      readInt m.1 = some (i, []) ∧ m.2 = .arr ((calls.filter fun x => x.1 = i).map warningOf))
      (firstSeen (calls.map Prod.fst)) members := by
  unfold Warnings.json at h
  split at h
  · cases h
  · cases h
    refine ⟨_, readJson_dumps _, ?_⟩
    rw [registered_eq, List.map_map, List.forall₂_map_right_iff, List.forall₂_same]
    intro i _
    refine ⟨?_, ?_⟩
    · have := readInt_repr i (r := []) (by simp)
      rwa [List.append_nil] at this
    · simp only [Function.comp_apply, List.map_map]
      rfl

/-- **C101.** So the text determines, for every token, its warnings and their order. -/
theorem C101_injective (calls calls' : List WarningCall) (h : (registered calls).json = (registered calls').json) (i : Int) :
    calls.filter (fun x => x.1 = i) = calls'.filter fun x => x.1 = i := by
  cases hj : (registered calls).json with
  | none =>
    have h1 := (C101_none calls).mp hj
    rw [h] at hj
    rw [h1, (C101_none calls').mp hj]
  | some text =>
    obtain ⟨m, hm, h1⟩ := C101_read calls text hj
    obtain ⟨m', hm', h1'⟩ := C101_read calls' text (h ▸ hj)
    rw [hm] at hm'
    cases hm'
    have hinj : ∀ x y : WarningCall, x.1 = y.1 → warningOf x = warningOf y → x = y := by
      intro x y h1 h2
      unfold warningOf at h2
      simp only [Json.obj.injEq, List.cons.injEq, Prod.mk.injEq, true_and, Json.str.injEq, Json.arr.injEq, and_true] at h2
      have h3 := (List.map_injective_iff (f := Json.int)).mpr (fun a b h => Json.int.inj h) h2.2
      obtain ⟨a, b, c⟩ := x
      obtain ⟨a', b', c'⟩ := y
      simp_all
    have hlist : ∀ l l' : List WarningCall, (∀ x ∈ l, x.1 = i) → (∀ x ∈ l', x.1 = i) → l.map warningOf = l'.map warningOf →
        l = l' := by
      intro l
      induction l with
      | nil => intro l' _ _ he; cases l' with
        | nil => rfl
        | cons y l' => cases he
      | cons x l ih =>
        intro l' hx hy he
        cases l' with
        | nil => cases he
        | cons y l' =>
          rw [List.map_cons, List.map_cons] at he
          injection he with e1 e2
          rw [hinj x y (by rw [hx x (by simp), hy y (by simp)]) e1,
            ih l' (fun z hz => hx z (by simp [hz])) (fun z hz => hy z (by simp [hz])) e2]
    have key : ∀ ks ks' : List Int, ∀ m : List (Str × Json),
        List.Forall₂ (fun i (m : Str × Json) =>
          readInt m.1 = some (i, []) ∧ m.2 = .arr ((calls.filter fun x => x.1 = i).map warningOf)) ks m →
        List.Forall₂ (fun i (m : Str × Json) =>
          readInt m.1 = some (i, []) ∧ m.2 = .arr ((calls'.filter fun x => x.1 = i).map warningOf)) ks' m →
        ks = ks' ∧ ∀ j ∈ ks, (calls.filter fun x => x.1 = j).map warningOf = (calls'.filter fun x => x.1 = j).map warningOf := by
      intro ks ks' m f1
      induction f1 generalizing ks' with
      | nil => intro f2; cases f2; simp
      | cons a f ih =>
        intro f2
        cases f2 with
        | cons b f2 =>
          obtain ⟨rfl, h2⟩ := ih _ f2
          have e := a.1.symm.trans b.1
          simp only [Option.some.injEq, Prod.mk.injEq, and_true] at e
          subst e
          refine ⟨rfl, ?_⟩
          intro j hj
          rcases List.mem_cons.mp hj with rfl | hj
          · exact Json.arr.inj (a.2.symm.trans b.2)
          · exact h2 j hj
    obtain ⟨hk, hall⟩ := key _ _ _ h1 h1'
    by_cases hi : i ∈ firstSeen (calls.map Prod.fst)
    · apply hlist _ _ (by simp) (by simp) (hall i hi)
    · have hempty : ∀ cs : List WarningCall, i ∉ firstSeen (cs.map Prod.fst) → cs.filter (fun x => x.1 = i) = [] := by
        intro cs hc
        rw [List.filter_eq_nil_iff]
        intro y hy e
        rw [decide_eq_true_eq] at e
        exact hc ((mem_firstSeen _ _).mpr (e ▸ List.mem_map_of_mem hy))
      rw [hempty _ hi, hempty _ (hk ▸ hi)]

example : (registered [(3, c!"no \"verb\"\n", [1, 2]), (0, c!"é", []), (3, c!"\\", [-1])]).json = some
    c!"{\"3\": [{\"comment\": \"no \\\"verb\\\"\\n\", \"focusIdxs\": [1, 2]}, {\"comment\": \"\\\\\", \"focusIdxs\": [-1]}], \"0\": [{\"comment\": \"é\", \"focusIdxs\": []}]}" := by
  decide +kernel

/-- **C101.** A token is a leaf iff no token has it as parent; without `ROOT` there is no tree to ask. -/
theorem C101_leaf (tuples : List TokenTuple) (s : LabelledSentence) (h : LabelledSentence.new tuples = .ok s) (p : Nat) :
    ((∃ t ∈ tuples, t.2.1 = .ROOT) → ∃ b, s.isLeaf p = .ok b ∧ (b = true ↔ ∀ d c, ¬ GoldArc tuples d p c)) ∧
    ((∀ t ∈ tuples, t.2.1 ≠ .ROOT) → s.isLeaf p = .error .attribute) := by
  unfold LabelledSentence.new at h
  cases hr : goldRoot tuples with
  | none =>
    rw [hr] at h
    cases h
    refine ⟨?_, fun _ => rfl⟩
    rintro ⟨t, ht, he⟩
    exact absurd he (goldRoot_none.mp hr t ht)
  | some r =>
    rw [hr] at h
    simp only [bind, Except.bind, pure, Except.pure] at h
    split at h
    · cases h
    · rename_i tree ht
      cases h
      have inv := buildTree_inv ht
      constructor
      · intro _
        refine ⟨_, rfl, ?_⟩
        rw [List.isEmpty_iff]
        constructor
        · intro he d c hg
          have := (inv.mem_children _ _ _).mpr (mem_goldArcs.mpr hg)
          rw [he] at this
          cases this
        · intro hall
          rw [List.eq_nil_iff_forall_not_mem]
          rintro ⟨d, c⟩ hm
          exact hall d c (mem_goldArcs.mp ((inv.mem_children _ _ _).mp hm))
      · intro hno
        exfalso
        rw [goldRoot_none.mpr hno] at hr
        cases hr

example : ((LabelledSentence.new demoTuples).bind fun s => s.isLeaf 0) = .ok true ∧
    ((LabelledSentence.new demoTuples).bind fun s => s.isLeaf 3) = .ok false := by decide +kernel

end Props
