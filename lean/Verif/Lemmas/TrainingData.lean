import Verif.Model.TrainingData
import Verif.Lemmas.Samples
import Verif.Lemmas.Oracle
import Mathlib.Data.List.Perm.Basic

/-! Lemmas on reading labelled sentences and on the extraction of training data. -/

namespace Model
open Py

theorem Tag.ofName_iff (n : Str) (t : Tag) : Tag.ofName n = .ok t ↔ n = t.name := by
  unfold Tag.ofName
  constructor
  · intro h
    split at h
    · rename_i t' ht
      cases h
      have := List.find?_some ht
      simpa using (of_decide_eq_true this).symm
    · cases h
  · rintro rfl
    cases t <;> rfl

theorem Dep.ofName_iff (n : Str) (t : Dep) : Dep.ofName n = .ok t ↔ n = t.name := by
  unfold Dep.ofName
  constructor
  · intro h
    split at h
    · rename_i t' ht
      cases h
      have := List.find?_some ht
      simpa using (of_decide_eq_true this).symm
    · cases h
  · rintro rfl
    cases t <;> rfl

theorem Tag.ofName_error {n : Str} {e : PyErr} (h : Tag.ofName n = .error e) : e = .key := by
  unfold Tag.ofName at h
  split at h
  · cases h
  · cases h; rfl

theorem Dep.ofName_error {n : Str} {e : PyErr} (h : Dep.ofName n = .error e) : e = .key := by
  unfold Dep.ofName at h
  split at h
  · cases h
  · cases h; rfl

/-- A token tuple as it is given to the reader. -/
def rawTuple (t : WordTuple) : RawTuple := (t.1, t.2.1.name, t.2.2.1.name, t.2.2.2)

theorem rawRoot_typed : ∀ (l : List WordTuple) (i : Nat),
    rawRoot (l.map rawTuple) i = .ok (((l.zipIdx i).find? fun t => t.1.2.2.1 = .ROOT).map Prod.snd)
  | [], i => rfl
  | t :: l, i => by
    rw [List.map_cons, rawRoot]
    have : Dep.ofName (rawTuple t).2.2.1 = .ok t.2.2.1 := (Dep.ofName_iff _ _).mpr rfl
    simp only [this, bind, Except.bind, List.zipIdx_cons, List.find?_cons]
    by_cases h : t.2.2.1 = .ROOT
    · simp [h, pure, Except.pure]
    · simp only [h, if_false, decide_false]
      rw [← rawRoot_typed l (i + 1)]

/-- The arcs registered by the second loop from index `i` on. -/
def arcsFrom (l : List WordTuple) (i : Nat) : List Arc :=
  (l.zipIdx i).filterMap fun t =>
    if t.1.2.2.1 ≠ .ROOT ∧ t.1.2.2.1 ≠ .NODEP ∧ t.1.2.2.2 > -1 then some (t.1.2.2.1, t.1.2.2.2.toNat, t.2) else none

theorem readTokens_typed : ∀ (l : List WordTuple) (i : Nat) (tokens : List Str) (tags : List Tag) (deps : List Dep)
    (tree : Tree Dep Nat), readTokens (l.map rawTuple) i tokens tags deps tree =
      ((arcsFrom l i).foldlM (fun (t : Tree Dep Nat) a => t.registerChild a.1 a.2.1 a.2.2) tree).map fun tr =>
        ⟨tokens ++ l.map (·.1), ⟨tags ++ l.map (·.2.1), deps ++ l.map (·.2.2.1), some tr⟩⟩
  | [], i, tokens, tags, deps, tree => by
    simp [readTokens, arcsFrom, pure, Except.pure, Except.map]
  | t :: l, i, tokens, tags, deps, tree => by
    obtain ⟨w, tg, d, p⟩ := t
    have h1 : Dep.ofName d.name = .ok d := (Dep.ofName_iff _ _).mpr rfl
    have h2 : Tag.ofName tg.name = .ok tg := (Tag.ofName_iff _ _).mpr rfl
    rw [List.map_cons]
    show readTokens ((w, tg.name, d.name, p) :: l.map rawTuple) _ _ _ _ _ = _
    rw [readTokens]
    simp only [h1, h2, bind, Except.bind]
    by_cases h : d ≠ .ROOT ∧ d ≠ .NODEP ∧ p > -1
    · rw [if_pos h]
      have harcs : arcsFrom ((w, tg, d, p) :: l) i = (d, p.toNat, i) :: arcsFrom l (i + 1) := by
        simp [arcsFrom, List.zipIdx_cons, h]
      rw [harcs, List.foldlM_cons]
      cases htree : tree.registerChild d p.toNat i with
      | error e => rfl
      | ok tr =>
        simp only [bind, Except.bind]
        rw [readTokens_typed]
        simp
    · rw [if_neg h]
      have harcs : arcsFrom ((w, tg, d, p) :: l) i = arcsFrom l (i + 1) := by
        simp only [arcsFrom, List.zipIdx_cons, List.filterMap_cons, h, if_false]
      rw [harcs]
      rw [readTokens_typed]
      simp

theorem arcsFrom_zero (l : List WordTuple) : arcsFrom l 0 = goldArcs (l.map Prod.snd) := by
  unfold arcsFrom goldArcs
  rw [List.zipIdx_map, List.filterMap_map]
  rfl

theorem goldRoot_map (l : List WordTuple) :
    goldRoot (l.map Prod.snd) = (l.zipIdx.find? fun t => t.1.2.2.1 = .ROOT).map Prod.snd := by
  unfold goldRoot
  rw [List.zipIdx_map, List.find?_map, Option.map_map]
  rfl

theorem goldRoot_none {l : List TokenTuple} : goldRoot l = none ↔ ∀ t ∈ l, t.2.1 ≠ .ROOT := by
  unfold goldRoot
  rw [Option.map_eq_none_iff, List.find?_eq_none]
  constructor
  · intro h t ht
    obtain ⟨i, hi, rfl⟩ := List.mem_iff_getElem.mp ht
    have := h (l[i], i) (by rw [List.mem_zipIdx_iff_getElem?]; simp [hi])
    simpa using this
  · rintro h ⟨t, i⟩ ht
    have := h t (by
      rw [List.mem_zipIdx_iff_getElem?] at ht
      exact List.mem_of_getElem? ht)
    simpa using this

/-- Reading names or labels is the same. -/
theorem read_typed (l : List WordTuple) : GoldSentence.read (l.map rawTuple) =
    (LabelledSentence.new (l.map Prod.snd)).map fun s =>
      ⟨if ∃ t ∈ l, t.2.2.1 = .ROOT then l.map Prod.fst else [], s⟩ := by
  unfold GoldSentence.read LabelledSentence.new
  rw [rawRoot_typed, ← goldRoot_map]
  simp only [bind, Except.bind]
  cases h : goldRoot (l.map Prod.snd) with
  | none =>
    have hn := goldRoot_none.mp h
    have : ¬ ∃ t ∈ l, t.2.2.1 = Dep.ROOT := by
      rintro ⟨t, ht, hr⟩
      exact hn t.2 (List.mem_map_of_mem ht) hr
    simp only [this, if_false]
    rfl
  | some r =>
    have : ∃ t ∈ l, t.2.2.1 = Dep.ROOT := by
      by_contra hc
      have := (goldRoot_none (l := l.map Prod.snd)).mpr (by
        intro t ht hr
        obtain ⟨t', ht', rfl⟩ := List.mem_map.mp ht
        exact hc ⟨t', ht', hr⟩)
      rw [this] at h
      cases h
    simp only [this, if_true]
    rw [readTokens_typed, arcsFrom_zero]
    unfold buildTree
    cases (goldArcs (l.map Prod.snd)).foldlM (fun (t : Tree Dep Nat) a => t.registerChild a.1 a.2.1 a.2.2)
        { root := r } with
    | error e => rfl
    | ok tr => simp [Except.map, pure, Except.pure]

/-! ### Which sentences can be read -/

theorem rawRoot_cases : ∀ (ts : List RawTuple) (i : Nat),
    (rawRoot ts i = .ok none ∧ (∀ t ∈ ts, ∃ d : Dep, t.2.2.1 = d.name) ∧ ∀ t ∈ ts, t.2.2.1 ≠ c!"ROOT") ∨
    (∃ r, rawRoot ts i = .ok (some r) ∧ ∃ t ∈ ts, t.2.2.1 = c!"ROOT") ∨
    (rawRoot ts i = .error .key ∧ ∃ t ∈ ts, ∀ d : Dep, t.2.2.1 ≠ d.name)
  | [], _ => Or.inl ⟨rfl, by simp, by simp⟩
  | t :: ts, i => by
    rw [rawRoot]
    cases h : Dep.ofName t.2.2.1 with
    | error e =>
      right; right
      have he := Dep.ofName_error h
      subst he
      refine ⟨rfl, t, by simp, ?_⟩
      intro d hd
      rw [(Dep.ofName_iff _ _).mpr hd] at h
      cases h
    | ok d =>
      have hd := (Dep.ofName_iff _ _).mp h
      simp only [bind, Except.bind]
      by_cases hr : d = .ROOT
      · right; left
        rw [if_pos hr]
        refine ⟨i, rfl, t, by simp, ?_⟩
        rw [hd, hr]
        rfl
      · rw [if_neg hr]
        have hnr : t.2.2.1 ≠ c!"ROOT" := by
          intro h'
          rw [h'] at hd
          cases d <;> first | exact hr rfl | exact absurd hd (by decide)
        rcases rawRoot_cases ts (i + 1) with ⟨h1, h2, h3⟩ | ⟨r, h1, t', h2, h3⟩ | ⟨h1, t', h2, h3⟩
        · left
          refine ⟨h1, ?_, ?_⟩
          · intro u hu
            rcases List.mem_cons.mp hu with rfl | hu
            · exact ⟨d, hd⟩
            · exact h2 u hu
          · intro u hu
            rcases List.mem_cons.mp hu with rfl | hu
            · exact hnr
            · exact h3 u hu
        · exact Or.inr (Or.inl ⟨r, h1, t', by simp [h2], h3⟩)
        · exact Or.inr (Or.inr ⟨h1, t', by simp [h2], h3⟩)

theorem Dep.name_labelled (d : Dep) : d.name ∉ [c!"ROOT", c!"NODEP"] ↔ d ≠ .ROOT ∧ d ≠ .NODEP := by
  cases d <;> decide

/-- The labels of a token have known names. -/
def KnownNames (t : RawTuple) : Prop := (∃ d : Dep, t.2.2.1 = d.name) ∧ ∃ g : Tag, t.2.1 = g.name

theorem readTokens_ok_iff : ∀ (ts : List RawTuple) (i : Nat) (tokens : List Str) (tags : List Tag) (deps : List Dep)
    (tree : Tree Dep Nat), (∃ g, readTokens ts i tokens tags deps tree = .ok g) ↔
      (∀ t ∈ ts, KnownNames t) ∧ ∀ (k : Nat) t, ts[k]? = some t → t.2.2.1 ∉ [c!"ROOT", c!"NODEP"] → t.2.2.2 ≠ (i + k : Nat)
  | [], i, tokens, tags, deps, tree => by simp [readTokens]
  | (w, tg, dn, p) :: ts, i, tokens, tags, deps, tree => by
    rw [readTokens]
    cases h1 : Dep.ofName dn with
    | error e =>
      simp only [bind, Except.bind]
      constructor
      · rintro ⟨g, h⟩; cases h
      · rintro ⟨h, -⟩
        obtain ⟨⟨d, hd⟩, -⟩ := h _ List.mem_cons_self
        rw [(Dep.ofName_iff _ _).mpr hd] at h1
        cases h1
    | ok d =>
      have hd := (Dep.ofName_iff _ _).mp h1
      cases h2 : Tag.ofName tg with
      | error e =>
        simp only [bind, Except.bind]
        constructor
        · rintro ⟨g, h⟩; cases h
        · rintro ⟨h, -⟩
          obtain ⟨-, g, hg⟩ := h _ List.mem_cons_self
          rw [(Tag.ofName_iff _ _).mpr hg] at h2
          cases h2
      | ok g =>
        have hg := (Tag.ofName_iff _ _).mp h2
        simp only [bind, Except.bind]
        have hlab : dn ∉ [c!"ROOT", c!"NODEP"] ↔ d ≠ .ROOT ∧ d ≠ .NODEP := by
          rw [hd]; exact d.name_labelled
        have hknown : KnownNames (w, tg, dn, p) := ⟨⟨d, hd⟩, g, hg⟩
        have hsplit : ((∀ t ∈ (w, tg, dn, p) :: ts, KnownNames t) ∧ ∀ (k : Nat) t,
              ((w, tg, dn, p) :: ts)[k]? = some t → t.2.2.1 ∉ [c!"ROOT", c!"NODEP"] → t.2.2.2 ≠ (i + k : Nat)) ↔
            (d ≠ .ROOT ∧ d ≠ .NODEP → p ≠ (i : Nat)) ∧ ((∀ t ∈ ts, KnownNames t) ∧ ∀ (k : Nat) t,
              ts[k]? = some t → t.2.2.1 ∉ [c!"ROOT", c!"NODEP"] → t.2.2.2 ≠ (i + 1 + k : Nat)) := by
          constructor
          · rintro ⟨a, b⟩
            refine ⟨fun h => by simpa using b 0 _ rfl (hlab.mpr h), fun t ht => a t (List.mem_cons_of_mem _ ht), ?_⟩
            intro k t hk hl
            have := b (k + 1) t (by simpa using hk) hl
            rw [show i + 1 + k = i + (k + 1) by omega]
            exact this
          · rintro ⟨a, b, c⟩
            refine ⟨?_, ?_⟩
            · intro t ht
              rcases List.mem_cons.mp ht with rfl | ht
              · exact hknown
              · exact b t ht
            · intro k t hk hl
              cases k with
              | zero =>
                simp only [List.getElem?_cons_zero, Option.some.injEq] at hk
                subst hk
                simpa using a (hlab.mp hl)
              | succ k =>
                have := c k t (by simpa using hk) hl
                rw [show i + 1 + k = i + (k + 1) by omega] at this
                exact this
        rw [hsplit]
        by_cases h : d ≠ .ROOT ∧ d ≠ .NODEP ∧ p > -1
        · rw [if_pos h]
          unfold Tree.registerChild
          by_cases hp : p.toNat = i
          · rw [if_neg (by simpa using hp)]
            constructor
            · rintro ⟨g, h⟩; cases h
            · rintro ⟨a, -⟩
              exact absurd (by omega) (a ⟨h.1, h.2.1⟩)
          · rw [if_pos hp]
            simp only
            rw [readTokens_ok_iff]
            constructor
            · intro hh; exact ⟨fun _ => by omega, hh⟩
            · rintro ⟨-, hh⟩; exact hh
        · rw [if_neg h]
          rw [readTokens_ok_iff]
          constructor
          · intro hh
            refine ⟨fun hl => ?_, hh⟩
            have : ¬ p > -1 := fun hp => h ⟨hl.1, hl.2, hp⟩
            omega
          · rintro ⟨-, hh⟩; exact hh

theorem readTokens_error : ∀ (ts : List RawTuple) (i : Nat) (tokens : List Str) (tags : List Tag) (deps : List Dep)
    (tree : Tree Dep Nat) (e : PyErr), readTokens ts i tokens tags deps tree = .error e →
    e = .key ∧ (∃ t ∈ ts, (∀ d : Dep, t.2.2.1 ≠ d.name) ∨ ∀ g : Tag, t.2.1 ≠ g.name) ∨
    e = .assertion ∧ ∃ (k : Nat) (t : RawTuple), ts[k]? = some t ∧ t.2.2.1 ∉ [c!"ROOT", c!"NODEP"] ∧ t.2.2.2 = (i + k : Nat)
  | [], i, tokens, tags, deps, tree, e => by simp [readTokens]
  | (w, tg, dn, p) :: ts, i, tokens, tags, deps, tree, e => by
    rw [readTokens]
    cases h1 : Dep.ofName dn with
    | error e' =>
      simp only [bind, Except.bind, Except.error.injEq]
      rintro rfl
      refine Or.inl ⟨Dep.ofName_error h1, _, List.mem_cons_self, Or.inl fun d hd => ?_⟩
      rw [(Dep.ofName_iff _ _).mpr hd] at h1
      cases h1
    | ok d =>
      have hd := (Dep.ofName_iff _ _).mp h1
      cases h2 : Tag.ofName tg with
      | error e' =>
        simp only [bind, Except.bind, Except.error.injEq]
        rintro rfl
        refine Or.inl ⟨Tag.ofName_error h2, _, List.mem_cons_self, Or.inr fun d hd => ?_⟩
        rw [(Tag.ofName_iff _ _).mpr hd] at h2
        cases h2
      | ok g =>
        simp only [bind, Except.bind]
        have hrec : ∀ tokens tags deps tree, readTokens ts (i + 1) tokens tags deps tree = .error e →
            e = .key ∧ (∃ t ∈ (w, tg, dn, p) :: ts, (∀ d : Dep, t.2.2.1 ≠ d.name) ∨ ∀ g : Tag, t.2.1 ≠ g.name) ∨
            e = .assertion ∧ ∃ (k : Nat) (t : RawTuple), ((w, tg, dn, p) :: ts)[k]? = some t ∧
              t.2.2.1 ∉ [c!"ROOT", c!"NODEP"] ∧ t.2.2.2 = (i + k : Nat) := by
          intro tokens tags deps tree h
          rcases readTokens_error ts _ _ _ _ _ e h with ⟨he, t, ht, h⟩ | ⟨he, k, t, ht, hl, h⟩
          · exact Or.inl ⟨he, t, List.mem_cons_of_mem _ ht, h⟩
          · refine Or.inr ⟨he, k + 1, t, by simpa using ht, hl, ?_⟩
            rw [h]; congr 1; omega
        by_cases h : d ≠ .ROOT ∧ d ≠ .NODEP ∧ p > -1
        · rw [if_pos h]
          unfold Tree.registerChild
          by_cases hp : p.toNat ≠ i
          · rw [if_pos hp]
            exact hrec _ _ _ _
          · rw [if_neg hp]
            simp only [Except.error.injEq]
            rintro rfl
            refine Or.inr ⟨rfl, 0, _, rfl, ?_, by simp only [Nat.add_zero]; omega⟩
            show dn ∉ _
            rw [hd]
            exact d.name_labelled.mpr ⟨h.1, h.2.1⟩
        · rw [if_neg h]
          exact hrec _ _ _ _

/-! ### Columns of samples -/

theorem zipStarAux_columns {ρ β : Type} (rows : List ρ) : ∀ fs : List (ρ → β),
    zipStarAux fs.length (rows.map fun r => fs.map fun f => f r) = fs.map fun f => rows.map f
  | [] => rfl
  | f :: fs => by
    rw [List.length_cons, zipStarAux, if_pos (by simp)]
    rw [List.filterMap_map, List.map_map, List.map_cons]
    congr 1
    · rw [← List.filterMap_eq_map]; rfl
    · rw [← zipStarAux_columns rows fs]
      rfl

/-- `zip(*rows)` of rows of equal length gives columns. -/
theorem zipStar_columns {ρ β : Type} (rows : List ρ) (hne : rows ≠ []) (fs : List (ρ → β)) :
    zipStar (rows.map fun r => fs.map fun f => f r) = fs.map fun f => rows.map f := by
  cases rows with
  | nil => exact absurd rfl hne
  | cons r rs =>
    have := zipStarAux_columns (r :: rs) fs
    rw [← this]
    simp [zipStar]

theorem perm_of_map {ρ β : Type} {g : ρ → β} {ys zs : List β} (h : ys.Perm zs) :
    ∀ l : List ρ, zs = l.map g → ∃ order : List ρ, order.Perm l ∧ ys = order.map g := by
  induction h with
  | nil =>
    intro l hl
    exact ⟨l, .rfl, hl⟩
  | cons x _ ih =>
    intro l hl
    cases l with
    | nil => cases hl
    | cons a l =>
      simp only [List.map_cons, List.cons.injEq] at hl
      obtain ⟨o, ho, he⟩ := ih l hl.2
      exact ⟨a :: o, ho.cons a, by simp [hl.1, he]⟩
  | swap x y t =>
    intro l hl
    match l, hl with
    | a :: b :: l, hl =>
      simp only [List.map_cons, List.cons.injEq] at hl
      exact ⟨b :: a :: l, .swap a b l, by simp [hl.1, hl.2.1, hl.2.2]⟩
  | trans _ _ ih₁ ih₂ =>
    intro l hl
    obtain ⟨o, ho, he⟩ := ih₂ l hl
    obtain ⟨o', ho', he'⟩ := ih₁ o he
    exact ⟨o', ho'.trans ho, he'⟩

theorem mapM_ok_of {ρ β : Type} {f : ρ → Except PyErr β} {g : ρ → β} : ∀ {l : List ρ}, (∀ x ∈ l, f x = .ok (g x)) →
    l.mapM f = .ok (l.map g)
  | [], _ => rfl
  | x :: l, h => by
    rw [List.mapM_cons, h x (by simp), mapM_ok_of fun y hy => h y (List.mem_cons_of_mem _ hy)]
    rfl

theorem mapM_error_of {ρ β : Type} {f : ρ → Except PyErr β} {E : PyErr} : ∀ {l : List ρ},
    (∀ x ∈ l, (∃ y, f x = .ok y) ∨ f x = .error E) → (∃ x ∈ l, f x = .error E) → l.mapM f = .error E
  | [], _, h => by simp at h
  | x :: l, h, hx => by
    rw [List.mapM_cons]
    rcases h x (by simp) with ⟨y, hy⟩ | he
    · rw [hy]
      have : l.mapM f = .error E := by
        refine mapM_error_of (fun y hy => h y (List.mem_cons_of_mem _ hy)) ?_
        obtain ⟨z, hz, he⟩ := hx
        rcases List.mem_cons.mp hz with rfl | hz
        · rw [hy] at he; cases he
        · exact ⟨z, hz, he⟩
      rw [this]; rfl
    · rw [he]; rfl

/-! ### Transitions -/

theorem oracleLoop_idxs {s : LabelledSentence} {P : Nat → Prop} : ∀ (fuel : Nat) (stack buffer : List Nat)
    (acc ts : List (Nat × Nat × Trans)), (∀ x ∈ stack, P x) → (∀ x ∈ buffer, P x) → (∀ x ∈ acc, P x.1 ∧ P x.2.1) →
    s.oracleLoop fuel stack buffer acc = .ok (some ts) → ∀ x ∈ ts, P x.1 ∧ P x.2.1 := by
  intro fuel
  induction fuel with
  | zero =>
    intro stack buffer acc ts h1 h2 h3 h
    cases buffer with
    | nil =>
      simp only [LabelledSentence.oracleLoop, Except.ok.injEq, Option.some.injEq] at h
      rw [← h]; exact h3
    | cons b bs => simp [LabelledSentence.oracleLoop] at h
  | succ fuel ih =>
    intro stack buffer acc ts h1 h2 h3 h
    cases buffer with
    | nil =>
      simp only [LabelledSentence.oracleLoop, Except.ok.injEq, Option.some.injEq] at h
      rw [← h]; exact h3
    | cons b bs =>
      have hb : P b := h2 b (by simp)
      have hbs : ∀ x ∈ bs, P x := fun x hx => h2 x (by simp [hx])
      cases stack with
      | nil =>
        rw [LabelledSentence.oracleLoop] at h
        exact ih [b] bs acc ts (by simpa using hb) hbs h3 h
      | cons t st =>
        have ht : P t := h1 t (by simp)
        have hst : ∀ x ∈ st, P x := fun x hx => h1 x (by simp [hx])
        have hacc : ∀ tr : Trans, ∀ x ∈ acc ++ [(t, b, tr)], P x.1 ∧ P x.2.1 := by
          intro tr x hx
          rcases List.mem_append.mp hx with hx | hx
          · exact h3 x hx
          · rw [List.mem_singleton.mp hx]; exact ⟨ht, hb⟩
        have hpush : ∀ x ∈ b :: t :: st, P x := by
          intro x hx
          rcases List.mem_cons.mp hx with rfl | hx
          · exact hb
          · exact h1 x hx
        rw [LabelledSentence.oracleLoop] at h
        simp only [bind, Except.bind] at h
        split at h
        · cases h
        · split at h
          · exact ih _ _ _ _ hst h2 (hacc _) h
          · split at h
            · cases h
            · split at h
              · exact ih _ _ _ _ hpush hbs (hacc _) h
              · split at h
                · cases h
                · split at h
                  · exact ih _ _ _ _ hst h2 (hacc _) h
                  · exact ih _ _ _ _ hpush hbs (hacc _) h

theorem oracleLoop_grows {s : LabelledSentence} : ∀ (fuel : Nat) (stack buffer : List Nat)
    (acc ts : List (Nat × Nat × Trans)), s.oracleLoop fuel stack buffer acc = .ok (some ts) → acc.length ≤ ts.length ∧
      (stack ≠ [] → buffer ≠ [] → acc.length < ts.length) := by
  intro fuel
  induction fuel with
  | zero =>
    intro stack buffer acc ts h
    cases buffer with
    | nil =>
      simp only [LabelledSentence.oracleLoop, Except.ok.injEq, Option.some.injEq] at h
      rw [← h]; simp
    | cons b bs => simp [LabelledSentence.oracleLoop] at h
  | succ fuel ih =>
    intro stack buffer acc ts h
    cases buffer with
    | nil =>
      simp only [LabelledSentence.oracleLoop, Except.ok.injEq, Option.some.injEq] at h
      rw [← h]; simp
    | cons b bs =>
      cases stack with
      | nil =>
        rw [LabelledSentence.oracleLoop] at h
        exact ⟨(ih [b] bs acc ts h).1, fun h => absurd rfl h⟩
      | cons t st =>
        have key : ∀ {stack' buffer' : List Nat} {tr : Trans},
            s.oracleLoop fuel stack' buffer' (acc ++ [(t, b, tr)]) = .ok (some ts) → acc.length < ts.length := by
          intro st' bf' tr h
          have := (ih _ _ _ _ h).1
          simp at this; omega
        have : acc.length < ts.length := by
          rw [LabelledSentence.oracleLoop] at h
          simp only [bind, Except.bind] at h
          split at h
          · cases h
          · split at h
            · exact key h
            · split at h
              · cases h
              · split at h
                · exact key h
                · split at h
                  · cases h
                  · split at h
                    · exact key h
                    · exact key h
        exact ⟨by omega, fun _ _ => this⟩

theorem validIdxs_spec (s : LabelledSentence) (i : Nat) :
    i ∈ s.validIdxs ↔ ∃ d, s.deps[i]? = some d ∧ d ≠ .NODEP := by
  unfold LabelledSentence.validIdxs
  simp only [List.mem_map, List.mem_filter, List.mem_zipIdx_iff_getElem?, decide_eq_true_eq, Prod.exists,
    exists_eq_right]

theorem validIdxs_length (s : LabelledSentence) : s.validIdxs.length = s.deps.countP (· ≠ .NODEP) := by
  unfold LabelledSentence.validIdxs
  rw [List.length_map, ← List.countP_eq_length_filter]
  conv_rhs => rw [← List.zipIdx_map_fst 0 s.deps, List.countP_map]
  rfl

theorem transitions_spec {s : LabelledSentence} {fuel : Nat} {ts : List (Nat × Nat × Trans)}
    (h : s.transitions fuel = .ok (some ts)) :
    (∀ x ∈ ts, x.1 ∈ s.validIdxs ∧ x.2.1 ∈ s.validIdxs) ∧ (ts = [] ↔ s.validIdxs.length ≤ 1) := by
  unfold LabelledSentence.transitions at h
  cases hv : s.validIdxs with
  | nil =>
    rw [hv] at h
    simp only [Except.ok.injEq, Option.some.injEq] at h
    subst h
    simp
  | cons b bs =>
    rw [hv] at h
    replace h : s.oracleLoop fuel [b] bs [] = .ok (some ts) := h
    refine ⟨oracleLoop_idxs (P := fun x => x ∈ b :: bs) fuel _ _ _ _ (by simp)
      (fun x hx => List.mem_cons_of_mem _ hx) (by simp) h, ?_⟩
    cases bs with
    | nil =>
      unfold LabelledSentence.oracleLoop at h
      simp only [Except.ok.injEq, Option.some.injEq] at h
      simp [← h]
    | cons c cs =>
      have := (oracleLoop_grows _ _ _ _ _ h).2 (by simp) (by simp)
      simp only [List.length_nil] at this
      constructor
      · rintro rfl; simp at this
      · intro h; simp at h

end Model
