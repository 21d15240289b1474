import Verif.Model.Pipeline
import Verif.Spec.Pipeline
import Verif.Props.Nodes
import Verif.Props.Chunker
import Verif.Props.ArgFinder
import Verif.Lemmas.ArgOrder
import Verif.Props.Semantics
import Verif.Props.Normalization
import Verif.Props.Lemmatizer
import Verif.Props.Samples

/-! Lemmas on the pipeline. -/

namespace Model
open Py Spec

/-! ### Loops over nodes -/

theorem foldlM_keeps {α β : Type} (P : β → Prop) (f : β → α → Except PyErr β) (hf : ∀ b a b', P b → f b a = .ok b' → P b') :
    ∀ (l : List α) (b b' : β), P b → l.foldlM f b = .ok b' → P b'
  | [], b, b', h, e => by
    simp only [List.foldlM_nil, pure, Except.pure, Except.ok.injEq] at e
    exact e ▸ h
  | a :: l, b, b', h, e => by
    rw [List.foldlM_cons] at e
    cases hb : f b a with
    | error x => rw [hb] at e; simp [bind, Except.bind] at e
    | ok b₁ =>
      rw [hb] at e
      exact foldlM_keeps P f hf l b₁ b' (hf b a b₁ h hb) e

/-- A loop that replaces each node by a function of itself. -/
theorem foldlM_upd (step : Heap → Ref → Except PyErr Heap) (f : Node → Except PyErr Node)
    (hstep : ∀ h r, step h r = (f (h.node r)).map fun n => h.upd r fun _ => n) :
    ∀ (nodes : List Ref) (_ : nodes.Nodup) (h : Heap) (_ : ∀ r ∈ nodes, ∃ n, f (h.node r) = .ok n),
      ∃ h', nodes.foldlM step h = .ok h' ∧ h'.next = h.next ∧
        ∀ r, (r ∈ nodes → f (h.node r) = .ok (h'.node r)) ∧ (r ∉ nodes → h'.node r = h.node r)
  | [], _, h, _ => ⟨h, rfl, rfl, fun r => ⟨by simp, fun _ => rfl⟩⟩
  | a :: l, hnd, h, hok => by
    obtain ⟨n, hn⟩ := hok a (by simp)
    obtain ⟨hal, hl⟩ := List.nodup_cons.mp hnd
    have hne : ∀ r ∈ l, (h.upd a fun _ => n).node r = h.node r := by
      intro r hr
      have : r ≠ a := by rintro rfl; exact hal hr
      simp [Heap.upd, this]
    obtain ⟨h', e1, e2, e3⟩ := foldlM_upd step f hstep l hl (h.upd a fun _ => n)
      (fun r hr => by rw [hne r hr]; exact hok r (by simp [hr]))
    refine ⟨h', ?_, e2, ?_⟩
    · rw [List.foldlM_cons, hstep, hn]
      exact e1
    · intro r
      refine ⟨fun hr => ?_, fun hr => ?_⟩
      · rcases List.mem_cons.mp hr with rfl | hr
        · rw [(e3 r).2 hal, hn]
          simp [Heap.upd]
        · rw [← hne r hr]
          exact (e3 r).1 hr
      · rw [List.mem_cons, not_or] at hr
        rw [(e3 r).2 hr.2]
        simp [Heap.upd, hr.1]

/-! ### Nodification makes blank nodes -/

theorem noArgs_new (lower : Str → Str) (i : Nat) (x : Str) (tag : Tag) : NoArgs (Node.new lower i x tag) := by
  constructor <;> rfl

theorem noArgs_put {s : Nodif} (h : ∀ r, NoArgs (s.heap.node r)) (k : Nat) {n : Node} (hn : NoArgs n) (r : Ref) :
    NoArgs ((s.put k n).heap.node r) := by
  simp only [Nodif.put, Heap.alloc]
  split
  · exact hn
  · exact h r

theorem noArgs_empty (r : Ref) : NoArgs (Heap.empty.node r) := by constructor <;> rfl

theorem nodify_noArgs {lower : Str → Str} {tokens : List Str} {tags : List Tag} {tree : Option (Tree Dep Nat)} {h : Heap}
    {d : Dict Nat Ref} {nt : Option (Tree Dep Ref)} (e : nodify lower tokens tags tree = .ok (h, d, nt)) (r : Ref) :
    NoArgs (h.node r) := by
  unfold nodify at e
  cases tree with
  | none => cases e; exact noArgs_empty r
  | some t =>
    simp only at e
    split at e
    · simp only [bind, Except.bind] at e
      split at e
      · cases e
      · split at e
        · cases e
        · cases e
          have := noArgs_put (s := { heap := Heap.empty, dict := [], bl := [] }) noArgs_empty 0
            (noArgs_new lower t.root (by assumption) (by assumption)) r
          exact this
    · have h0 : ∀ r, NoArgs (({ heap := Heap.empty, dict := [], bl := nodepIdxs tokens t } : Nodif).heap.node r) :=
        noArgs_empty
      simp only [bind, Except.bind] at e
      split at e
      · cases e
      rename_i s₁ e1
      split at e
      · cases e
      rename_i s₂ e2
      split at e
      · cases e
      rename_i s₃ e3
      split at e
      · cases e
      split at e
      · cases e
      cases e
      have g1 := foldlM_keeps (fun s : Nodif => ∀ r, NoArgs (s.heap.node r)) (flattenStep lower tokens tags t) (by
        intro s a s' hs e
        unfold flattenStep at e
        split at e
        · split at e
          · cases e; exact hs
          · split at e
            · simp only [bind, Except.bind] at e
              split at e
              · cases e
              split at e
              · cases e
              split at e
              · cases e
              split at e
              · cases e
              cases e
              exact noArgs_put hs 0 (noArgs_new ..)
            · cases e; exact hs
        · cases e; exact hs) _ _ _ h0 e1
      have g2 := foldlM_keeps (fun s : Nodif => ∀ r, NoArgs (s.heap.node r)) (particleStep lower tokens tags t) (by
        intro s a s' hs e
        unfold particleStep at e
        simp only at e
        split at e
        · cases e; exact hs
        · simp only [bind, Except.bind] at e
          split at e
          · cases e
          split at e
          · cases e
          rename_i n en
          cases e
          refine noArgs_put hs 0 ?_
          refine foldlM_keeps NoArgs (addParticle lower tokens a.2) ?_ _ _ _ (noArgs_new ..) en
          intro n i n' hn e
          unfold addParticle at e
          simp only [bind, Except.bind] at e
          split at e
          · cases e
          split at e
          · cases e; exact ⟨hn.1, hn.2, hn.3, hn.4, hn.5, hn.6, hn.7, hn.8, hn.9, hn.10, hn.11, hn.12, hn.13, hn.14⟩
          · split at e
            · cases e; exact ⟨hn.1, hn.2, hn.3, hn.4, hn.5, hn.6, hn.7, hn.8, hn.9, hn.10, hn.11, hn.12, hn.13, hn.14⟩
            · cases e; exact hn) _ _ _ g1 e2
      exact foldlM_keeps (fun s : Nodif => ∀ r, NoArgs (s.heap.node r)) (remainingStep lower tags) (by
        intro s a s' hs e
        unfold remainingStep at e
        split at e
        · simp only [bind, Except.bind] at e
          split at e
          · cases e
          cases e
          exact noArgs_put hs 0 (noArgs_new ..)
        · cases e; exact hs) _ _ _ g2 e3 r

/-! ### One sentence -/

/-- Normalization of one node. -/
def Logic.normalized (c : Logic) (n : Node) : Except PyErr Node := do
  let s ← standardize c.lemmatizer.lm n.standard
  let ls ← c.lemmatizer.call s n.tag
  return { n with standard := s, lem := ls.1, suffix := ls.2 }

theorem Logic.normalizeNode_eq (c : Logic) (h : Heap) (r : Ref) :
    c.normalizeNode h r = (c.normalized (h.node r)).map fun n => h.upd r fun _ => n := by
  unfold Logic.normalizeNode Logic.normalized
  cases standardize c.lemmatizer.lm (h.node r).standard with
  | error e => rfl
  | ok s =>
    simp only [bind, Except.bind]
    cases c.lemmatizer.call s (h.node r).tag with
    | error e => rfl
    | ok ls => rfl

theorem Logic.canonicalizeNode_eq (c : Logic) (h : Heap) (r : Ref) :
    c.canonicalizeNode h r = (canonicalize c.lemmatizer.call (h.node r)).map fun n => h.upd r fun _ => n := by
  unfold Logic.canonicalizeNode
  cases canonicalize c.lemmatizer.call (h.node r) <;> rfl

/-- The language model has been loaded from files all of whose n-grams have a word. -/
structure LogicOk (c : Logic) : Prop where
  loaded : ∃ R log files, LM.load R log files = .ok c.lemmatizer.lm
  words : HasWords c.lemmatizer.lm

theorem LogicOk.normalized {c : Logic} (hc : LogicOk c) (n : Node) : ∃ s l x,
    standardize c.lemmatizer.lm n.standard = .ok s ∧ c.lemmatizer.call s n.tag = .ok (l, x) ∧
    c.normalized n = .ok { n with standard := s, lem := l, suffix := x } := by
  obtain ⟨R, log, files, hl⟩ := hc.loaded
  obtain ⟨s, hs⟩ := Props.C34_total hl n.standard
  obtain ⟨⟨l, x⟩, hx⟩ := Props.C35_total hl hc.words s n.tag
  refine ⟨s, l, x, hs, hx, ?_⟩
  unfold Logic.normalized
  simp only [hs, hx, bind, Except.bind, pure, Except.pure]

theorem LogicOk.canonicalized {c : Logic} (hc : LogicOk c) (n : Node) : ∃ n', canonicalize c.lemmatizer.call n = .ok n' := by
  obtain ⟨R, log, files, hl⟩ := hc.loaded
  exact Props.C40_total n fun _ => Props.C35_total hl hc.words _ _

theorem Logic.pp_eq (c : Logic) (lem : Str) :
    pastParticiple c.lemmatizer.lm [[]] c.reversedPps lem = .ok (c.pp lem) := by
  have : ∃ s, pastParticiple c.lemmatizer.lm [[]] c.reversedPps lem = .ok s := by
    cases h : Dict.get? c.reversedPps lem with
    | some s => exact ⟨s, Props.C39_irregular _ _ _ _ h⟩
    | none =>
      obtain ⟨s, hs, -⟩ := Props.C39_regular (lm := c.lemmatizer.lm) [[]] c.reversedPps lem h
      exact ⟨s, hs⟩
  obtain ⟨s, hs⟩ := this
  unfold Logic.pp
  rw [hs]

/-- The loops over the nodes of a sentence with a tree. -/
theorem Logic.process_some {c : Logic} (hc : LogicOk c) {tokens : List Str} {tags : List Tag}
    {it : Option (Tree Dep Nat)} {h₀ : Heap} {dict : Dict Nat Ref} {nt : Tree Dep Ref}
    {hist : List (Dep × Ref × Ref)} {root : Ref}
    (hn : nodify c.lower tokens tags it = .ok (h₀, dict, some nt)) (hb : buildTree root hist = .ok nt)
    (hnd : dict.values.Nodup) (chunk : Bool) : ∃ h₁ h₂ h₃ h₄ h₅ ts,
      c.process (tokens, tags, it, chunk) = .ok ((h₅, dict), ts) ∧
      Normalized c.lemmatizer h₀ dict.values h₁ ∧ TagsFixed c.lemmatizer.adjs c.nouns h₁ nt dict.values h₂ ∧
      (chunk = true → Chunked h₂ nt dict.values h₃) ∧ (chunk = false → h₃ = h₂) ∧
      Canonical c.lemmatizer h₃ dict.values h₄ ∧ (ArgsFound h₄ nt dict.values h₅ ∧ Order.Lists h₄ nt dict.values h₅) ∧
      ∀ x, x ∈ ts ↔ Said c.pp h₅ dict.values x.args := by
  have n0 := nodify_noArgs hn
  obtain ⟨h₁, e1, -, s1⟩ := foldlM_upd c.normalizeNode c.normalized c.normalizeNode_eq dict.values hnd h₀
    (fun r _ => by obtain ⟨s, l, x, -, -, h⟩ := hc.normalized (h₀.node r); exact ⟨_, h⟩)
  have t1 : Normalized c.lemmatizer h₀ dict.values h₁ := by
    intro r
    refine ⟨(s1 r).2, fun hr => ?_⟩
    obtain ⟨s, l, x, g1, g2, g3⟩ := hc.normalized (h₀.node r)
    rw [(s1 r).1 hr, Except.ok.injEq] at g3
    exact ⟨s, l, x, g1, g2, g3⟩
  have n1 : ∀ r, NoArgs (h₁.node r) := by
    intro r
    by_cases hr : r ∈ dict.values
    · obtain ⟨s, l, x, -, -, e⟩ := (t1 r).2 hr
      rw [e]
      have hn := n0 r
      exact ⟨hn.1, hn.2, hn.3, hn.4, hn.5, hn.6, hn.7, hn.8, hn.9, hn.10, hn.11, hn.12, hn.13, hn.14⟩
    · rw [(t1 r).1 hr]
      exact n0 r
  have t2 : TagsFixed c.lemmatizer.adjs c.nouns h₁ nt dict.values (fixAll c.lemmatizer.adjs c.nouns nt h₁ dict.values) :=
    Props.C55_fix_effect c.lemmatizer.adjs c.nouns h₁ root hist nt hb dict.values hnd
  generalize hh2 : fixAll c.lemmatizer.adjs c.nouns nt h₁ dict.values = h₂ at t2
  have n2 : ∀ r, NoArgs (h₂.node r) := by
    intro r
    obtain ⟨tag, g, -⟩ := t2
    rw [g]
    have hn := n1 r
    exact ⟨hn.1, hn.2, hn.3, hn.4, hn.5, hn.6, hn.7, hn.8, hn.9, hn.10, hn.11, hn.12, hn.13, hn.14⟩
  have t3 : ∃ h₃, (if chunk then chunker h₂ nt dict.values else .ok h₂) = .ok h₃ ∧
      (chunk = true → Chunked h₂ nt dict.values h₃) ∧ (chunk = false → h₃ = h₂) ∧ ∀ r, NoArgs (h₃.node r) := by
    cases chunk with
    | false => exact ⟨h₂, rfl, by simp, by simp, n2⟩
    | true =>
      obtain ⟨h₃, g1, -, g2⟩ := Props.C54_chunks h₂ root hist nt hb dict.values hnd
      refine ⟨h₃, g1, fun _ => g2, by simp, ?_⟩
      intro r
      by_cases hx : r ∈ dict.values ∧ (∃ c, Compound h₂ nt dict.values c r) ∧ (∀ p, ¬ Compound h₂ nt dict.values r p)
      · obtain ⟨ns, -, e⟩ := (g2 r).1 hx.1 hx.2.1 hx.2.2
        rw [e]
        have hn := n2 r
        exact ⟨hn.1, hn.2, hn.3, hn.4, hn.5, hn.6, hn.7, hn.8, hn.9, hn.10, hn.11, hn.12, hn.13, hn.14⟩
      · rw [(g2 r).2 (by
          by_cases a : r ∈ dict.values
          · by_cases b : ∃ c, Compound h₂ nt dict.values c r
            · exact Or.inr (Or.inr (by
                by_contra hc
                exact hx ⟨a, b, fun p hp => hc ⟨p, hp⟩⟩))
            · exact Or.inr (Or.inl fun c hcc => b ⟨c, hcc⟩)
          · exact Or.inl a)]
        exact n2 r
  obtain ⟨h₃, e3, t3, t3', n3⟩ := t3
  obtain ⟨h₄, e4, -, s4⟩ := foldlM_upd c.canonicalizeNode (canonicalize c.lemmatizer.call) c.canonicalizeNode_eq dict.values
    hnd h₃ (fun r _ => hc.canonicalized (h₃.node r))
  have t4 : Canonical c.lemmatizer h₃ dict.values h₄ := fun r => ⟨(s4 r).2, (s4 r).1⟩
  have n4 : ∀ r, NoArgs (h₄.node r) := by
    intro r
    by_cases hr : r ∈ dict.values
    · rw [(Props.C40_frame _ _ ((t4 r).2 hr)).1]
      have hn := n3 r
      exact ⟨hn.1, hn.2, hn.3, hn.4, hn.5, hn.6, hn.7, hn.8, hn.9, hn.10, hn.11, hn.12, hn.13, hn.14⟩
    · rw [(t4 r).1 hr]
      exact n3 r
  obtain ⟨h₅, e5, t5⟩ := Props.C56_arguments_exact root hist nt hb dict.values h₄ n4
  obtain ⟨ts, e6, t6⟩ := Props.C57_extraction_exact c.pp h₅ dict.values
  refine ⟨h₁, h₂, h₃, h₄, h₅, ts, ?_, t1, t2, t3, t3', t4, ⟨t5, order_lists hb n4 e5⟩, t6⟩
  unfold Logic.process
  simp only [hn, bind, Except.bind, e1, hh2, pure, Except.pure]
  cases chunk with
  | false =>
    simp only [Bool.false_eq_true, if_false, Except.ok.injEq] at e3 ⊢
    subst e3
    simp only [e4, e5, e6]
  | true =>
    simp only [if_true] at e3 ⊢
    simp only [e3, e4, e5, e6]

/-- A sentence without tree has no tuple. -/
theorem Logic.process_none (c : Logic) (tokens : List Str) (tags : List Tag) (chunk : Bool) :
    c.process (tokens, tags, none, chunk) = .ok ((Heap.empty, []), []) := rfl

/-! ### Resplitting -/

theorem mem_splitters (t : Str) : t ∈ splitters ↔ CutToken t := by
  constructor
  · intro h
    simp only [splitters, List.mem_cons, List.not_mem_nil, or_false] at h
    rcases h with rfl | rfl | rfl | rfl | rfl | rfl | rfl | rfl | rfl | rfl <;> exact ⟨_, by decide, rfl⟩
  · rintro ⟨c, hc, rfl⟩
    revert c
    decide

/-- Groups alternate, are not empty and are uniform. -/
theorem groupBy_spec {α} (key : α → Bool) : ∀ l : List α, (groupBy key l).flatMap Prod.snd = l ∧
    (∀ g ∈ groupBy key l, g.2 ≠ [] ∧ ∀ x ∈ g.2, key x = g.1) ∧
    ((groupBy key l).map Prod.fst).IsChain (· ≠ ·)
  | [] => by simp [groupBy]
  | x :: xs => by
    obtain ⟨h1, h2, h3⟩ := groupBy_spec key xs
    unfold groupBy
    cases hg : groupBy key xs with
    | nil =>
      rw [hg] at h1
      simp only [List.flatMap_nil] at h1
      subst h1
      simp
    | cons g gs =>
      obtain ⟨b, g⟩ := g
      rw [hg] at h1 h2 h3
      simp only
      split
      · rename_i hb
        refine ⟨by simp [← h1], ?_, by simpa using h3⟩
        intro g' hg'
        rcases List.mem_cons.mp hg' with rfl | hg'
        · refine ⟨by simp, ?_⟩
          intro y hy
          rcases List.mem_cons.mp hy with rfl | hy
          · exact hb
          · exact (h2 (b, g) (by simp)).2 y hy
        · exact h2 g' (by simp [hg'])
      · rename_i hb
        refine ⟨by simp [← h1], ?_, ?_⟩
        · intro g' hg'
          rcases List.mem_cons.mp hg' with rfl | hg'
          · simp
          · exact h2 g' hg'
        · simp only [List.map_cons] at h3 ⊢
          exact List.IsChain.cons_cons hb h3

theorem pieces_groups : ∀ gs : List (Bool × List Str),
    (∀ g ∈ gs, g.2 ≠ [] ∧ ∀ x ∈ g.2, (g.1 = true ↔ CutToken x)) → (gs.map Prod.fst).IsChain (· ≠ ·) →
    Pieces (gs.flatMap Prod.snd) ((gs.filter fun g => !g.1).map Prod.snd)
  | [], _, _ => .none [] (by simp)
  | [(true, g)], h, _ => by
    have := (h (true, g) (by simp)).2
    simpa using Pieces.none g fun t ht => (this t ht).mp rfl
  | [(false, g)], h, _ => by
    have h1 := (h (false, g) (by simp))
    simpa using Pieces.last [] g [] (by simp) h1.1 (fun t ht hc => by simpa using (h1.2 t ht).mpr hc) (by simp)
  | (true, g) :: (true, g') :: gs, _, hc => by simp at hc
  | (false, g) :: (false, g') :: gs, _, hc => by simp at hc
  | (true, g) :: (false, g') :: gs, h, hc => by
    have ih := pieces_groups ((false, g') :: gs) (fun x hx => h x (by simp [hx])) (by simp at hc ⊢; exact hc)
    have h1 := (h (true, g) (by simp)).2
    have hcut : ∀ t ∈ g, CutToken t := fun t ht => (h1 t ht).mp rfl
    simp only [List.flatMap_cons, List.filter_cons, Bool.not_true, Bool.not_false, if_true, Bool.false_eq_true, if_false,
      List.map_cons] at ih ⊢
    generalize (List.filter (fun g => !g.1) gs).map Prod.snd = ps at ih ⊢
    generalize hw : g' ++ List.flatMap Prod.snd gs = w at ih ⊢
    generalize hq : g' :: ps = q at ih ⊢
    clear hw hc h
    cases ih with
    | none cuts _ => cases hq
    | last cuts piece cuts' a b c d =>
      have := Pieces.last (g ++ cuts) piece cuts' (by
        intro t ht
        rcases List.mem_append.mp ht with ht | ht
        · exact hcut t ht
        · exact a t ht) b c d
      simpa using this
    | more cuts piece cut rest p ps a b c d e =>
      have := Pieces.more (g ++ cuts) piece cut rest p ps (by
        intro t ht
        rcases List.mem_append.mp ht with ht | ht
        · exact hcut t ht
        · exact a t ht) b c d e
      simpa using this
  | (false, g) :: (true, g') :: gs, h, hc => by
    have ih := pieces_groups ((true, g') :: gs) (fun x hx => h x (by simp [hx])) (by simp at hc ⊢; exact hc)
    have h1 := h (false, g) (by simp)
    have h2 := h (true, g') (by simp)
    simp only [List.flatMap_cons, List.filter_cons, Bool.not_true, Bool.not_false, if_true, Bool.false_eq_true, if_false,
      List.map_cons] at ih ⊢
    obtain ⟨cut, rest, rfl⟩ := List.exists_cons_of_ne_nil h2.1
    have hnc : ∀ t ∈ g, ¬ CutToken t := fun t ht hc => by simpa using (h1.2 t ht).mpr hc
    have hcut : ∀ t ∈ cut :: rest, CutToken t := fun t ht => (h2.2 t ht).mp rfl
    -- drop the first cut
    cases hps : (List.filter (fun g => !g.1) gs).map Prod.snd with
    | nil =>
      rw [hps] at ih
      generalize hw : cut :: rest ++ List.flatMap Prod.snd gs = w at ih ⊢
      cases ih with
      | none cuts a => simpa using Pieces.last [] g w (by simp) h1.1 hnc a
    | cons p ps =>
      rw [hps] at ih
      refine Pieces.more [] g cut (rest ++ List.flatMap Prod.snd gs) p ps (by simp) h1.1 hnc (hcut cut (by simp)) ?_
      have key : ∀ w q, Pieces w q → ∀ x xs, w = x :: xs → CutToken x → Pieces xs q := by
        intro w q hp x xs hw hx
        cases hp with
        | none cuts a => exact .none _ fun t ht => a t (by rw [hw]; simp [ht])
        | last cuts piece cuts' a b c d =>
          cases cuts with
          | nil =>
            obtain ⟨y, ys, rfl⟩ := List.exists_cons_of_ne_nil b
            simp only [List.nil_append, List.cons_append, List.cons.injEq] at hw
            exact absurd (hw.1 ▸ hx) (c y (by simp))
          | cons y ys =>
            simp only [List.cons_append, List.cons.injEq] at hw
            rw [← hw.2]
            exact .last ys piece cuts' (fun t ht => a t (by simp [ht])) b c d
        | more cuts piece cut' rest' p ps a b c d e =>
          cases cuts with
          | nil =>
            obtain ⟨y, ys, rfl⟩ := List.exists_cons_of_ne_nil b
            simp only [List.nil_append, List.cons_append, List.cons.injEq] at hw
            exact absurd (hw.1 ▸ hx) (c y (by simp))
          | cons y ys =>
            simp only [List.cons_append, List.cons.injEq] at hw
            rw [← hw.2]
            exact .more ys piece cut' rest' p ps (fun t ht => a t (by simp [ht])) b c d e
      exact key _ _ ih cut _ rfl (hcut cut (by simp))

theorem splitLong_spec (tokens : List Str) :
    Resplit tokens ((splitLong tokens).filter fun t => decide (t.length ≤ maxSentLength)) := by
  have hm : maxSentLength = 50 := rfl
  constructor
  · intro h
    unfold splitLong
    rw [if_neg (by omega)]
    simp [hm, h]
  · intro h
    unfold splitLong
    rw [if_pos (by omega)]
    obtain ⟨h1, h2, h3⟩ := groupBy_spec (fun t => decide (t ∈ splitters)) tokens
    refine ⟨_, ?_, rfl⟩
    have := pieces_groups _ (fun g hg => ⟨(h2 g hg).1, fun x hx => ?_⟩) h3
    · rwa [h1] at this
    · rw [← (h2 g hg).2 x hx, decide_eq_true_eq, mem_splitters]

theorem splitTokens_eq (lists : List (List Str)) : splitTokens lists =
    lists.flatMap fun tokens => (splitLong tokens).filter fun t => decide (t.length ≤ maxSentLength) := by
  unfold splitTokens
  have : ∀ (ls acc : List (List Str)), ls.foldl (fun acc tokens => acc ++ splitLong tokens) acc = acc ++ ls.flatMap splitLong := by
    intro ls
    induction ls with
    | nil => simp
    | cons l ls ih => intro acc; rw [List.foldl_cons, ih]; simp
  rw [this, List.nil_append, List.filter_flatMap]

theorem splitTokens_length {lists : List (List Str)} {s : List Str} (h : s ∈ splitTokens lists) : s.length ≤ 50 := by
  unfold splitTokens at h
  have := (List.mem_filter.mp h).2
  exact of_decide_eq_true this

/-! ### Regrouping -/

theorem exists_groups {α β : Type} : ∀ (gs : List (List α)) (tl : List β), tl.length = gs.flatten.length →
    ∃ tls : List (List β), tls.flatten = tl ∧ tls.map List.length = gs.map List.length
  | [], tl, h => ⟨[], (List.eq_nil_of_length_eq_zero (by simpa using h)).symm, rfl⟩
  | g :: gs, tl, h => by
    rw [List.flatten_cons, List.length_append] at h
    obtain ⟨tls, h1, h2⟩ := exists_groups gs (tl.drop g.length) (by rw [List.length_drop]; omega)
    refine ⟨tl.take g.length :: tls, by simp [h1], ?_⟩
    simp only [List.map_cons, h2, List.length_take, List.cons.injEq, and_true]
    omega

theorem regroup_eq : ∀ (gs : List (List (List Str))) (tls : List (List (List STuple))) (pre : List (List STuple)),
    tls.map List.length = gs.map List.length →
    regroup (sentRanges pre.length gs) (pre ++ tls.flatten) = tls.map fun l => ⟨l.map Sentence.mk⟩
  | [], tls, pre, h => by
    have : tls = [] := by simpa using h
    subst this
    rfl
  | g :: gs, [], pre, h => by simp at h
  | g :: gs, l :: tls, pre, h => by
    simp only [List.map_cons, List.cons.injEq] at h
    have ih := regroup_eq gs tls (pre ++ l) h.2
    rw [List.length_append, h.1, List.append_assoc] at ih
    unfold regroup at ih ⊢
    rw [sentRanges, List.map_cons, List.map_cons, List.flatten_cons, ih, slice_nat]
    congr 2
    rw [← h.1]
    simp [List.take_append, List.drop_append]

/-! ### Tags and trees of all sentences -/

section
variable {W : Type} {nets : Networks W} {vectorize : List Str → Except PyErr (Nat × W)} {c : Logic}

/-- The components of a pipeline are as they should be: the networks give predictions of the right size, sentences of at
most 50 tokens can be vectorized and the language model is usable. -/
structure PipeOk (nets : Networks W) (vectorize : List Str → Except PyErr (Nat × W)) (c : Logic) : Prop where
  nets : NetsOk nets
  vec : ∀ s : List Str, s.length ≤ 50 → ∃ w, vectorize s = .ok (s.length + 2, w)
  logic : LogicOk c

theorem PipeOk.vecs (h : PipeOk nets vectorize c) {ss : List (List Str)} (hs : ∀ s ∈ ss, s.length ≤ 50) :
    ∀ s ∈ ss, ∃ n w, n ≤ maxSentLength ∧ vectorize s = .ok (n + 2, w) := by
  intro s h1
  obtain ⟨w, hw⟩ := h.vec s (hs s h1)
  exact ⟨_, w, hs s h1, hw⟩

theorem process_ok (h : Props.Returned nets vectorize ss tags trees) (hc : LogicOk c) {i : Nat} {tokens : List Str}
    {tg : List Tag} {o : Option (Tree Dep Nat)} (hg : tags[i]? = some tg) (ho : trees[i]? = some o)
    (hl : tokens.length = tg.length) (chunk : Bool) : ∃ r, c.process (tokens, tg, o, chunk) = .ok r := by
  cases o with
  | none => exact ⟨_, rfl⟩
  | some t =>
    obtain ⟨arcs, H, h1, h2⟩ := h.idxTree ho hg
    rw [← hl] at H
    obtain ⟨s, nt, dict, e, -, -, -, -, hb, -, -⟩ := nodify_spec (lower := c.lower) H hl.symm h1 h2
    obtain ⟨-, hnd, -⟩ := Props.C53_node_indexes h i t ho tg hg c.lower tokens hl _ _ _ e
    obtain ⟨h₁, h₂, h₃, h₄, h₅, ts, hp, -⟩ := Logic.process_some hc e hb hnd chunk
    exact ⟨_, hp⟩

theorem mem_sentPacks {tokenLists : List (List Str)} {tags : List (List Tag)} {trees : List (Option (Tree Dep Nat))}
    {chunk : Bool} {x : List Str × List Tag × Option (Tree Dep Nat) × Bool} (h : x ∈ sentPacks tokenLists tags trees chunk) :
    ∃ i : Nat, tokenLists[i]? = some x.1 ∧ tags[i]? = some x.2.1 ∧ trees[i]? = some x.2.2.1 ∧ x.2.2.2 = chunk := by
  obtain ⟨i, hi⟩ := List.mem_iff_getElem?.mp h
  unfold sentPacks at hi
  rw [List.getElem?_zip_eq_some, List.getElem?_zip_eq_some, List.getElem?_zip_eq_some] at hi
  obtain ⟨h1, h2, h3, h4⟩ := hi
  refine ⟨i, h1, h2, h3, ?_⟩
  exact (List.mem_replicate.mp (List.mem_of_getElem? h4)).2

theorem Returned.lengths (ok : PipeOk nets vectorize c) {ss : List (List Str)} (hs : ∀ s ∈ ss, s.length ≤ 50)
    (h : Props.Returned nets vectorize ss tags trees) {i : Nat} {s : List Str} {tg : List Tag} (h1 : ss[i]? = some s)
    (h2 : tags[i]? = some tg) : s.length = tg.length := by
  have := (Props.C41_parser_aligned nets vectorize ss tags trees h).2
  rw [List.forall₂_iff_get] at this
  obtain ⟨a, ha⟩ := List.getElem?_eq_some_iff.mp h1
  obtain ⟨b, hb⟩ := List.getElem?_eq_some_iff.mp h2
  obtain ⟨w, hw⟩ := this.2 i a b
  simp only [List.get_eq_getElem, ha, hb] at hw
  obtain ⟨w', hw'⟩ := ok.vec s (hs s (List.mem_of_getElem? h1))
  rw [hw'] at hw
  simp only [Except.ok.injEq, Prod.mk.injEq] at hw
  omega

theorem processTokens_spec (ok : PipeOk nets vectorize c) {ss : List (List Str)} (hs : ∀ s ∈ ss, s.length ≤ 50)
    (chunk : Bool) (cfg : PipelineCfg) (hk : 0 < cfg.nbCores) (hb : 0 < cfg.batchSize) :
    (∃ r, processTokens cfg vectorize nets c ss chunk = .ok r ∧ ∀ dicts tl, r = some (dicts, tl) →
      ∃ tags trees results, Props.Returned nets vectorize ss tags trees ∧
        (sentPacks ss tags trees chunk).mapM c.process = .ok results ∧ tl = results.map Prod.snd) ∧
    (2 * maxSentLength ≤ cfg.fuel → ∃ s₁ s₂ s₃ out, processTokens { cfg with
      schedVectorize := cfg.schedVectorize ++ s₁, schedTrees := cfg.schedTrees ++ s₂, schedLogic := cfg.schedLogic ++ s₃ }
      vectorize nets c ss chunk = .ok (some out)) := by
  have hv := ok.vecs hs
  obtain ⟨b, hbe⟩ := Int.eq_ofNat_of_zero_le (le_of_lt hb)
  obtain ⟨p1, p2⟩ := Props.C41_parser_terminates nets ok.nets vectorize ss hv cfg.rounding cfg.nbCores hk b (by omega)
  have hall : ∀ tags trees, Props.Returned nets vectorize ss tags trees →
      ∃ results, (sentPacks ss tags trees chunk).mapM c.process = .ok results := by
    intro tags trees h
    obtain ⟨ys, h1, -⟩ := mapM_ok_of_forall (l := sentPacks ss tags trees chunk) (f := c.process) (by
      rintro ⟨tokens, tg, o, b⟩ hx
      obtain ⟨i, g1, g2, g3, -⟩ := mem_sentPacks hx
      exact process_ok h ok.logic g2 g3 (Returned.lengths ok hs h g1 g2) b)
    exact ⟨ys, h1⟩
  constructor
  · cases hp : parserCall cfg.parser vectorize nets ss with
    | error e =>
      refine absurd hp ?_
      have := p1 cfg.schedVectorize cfg.schedTrees cfg.fuel e
      unfold PipelineCfg.parser
      rw [hbe]
      exact this
    | ok r =>
      cases r with
      | none => exact ⟨none, by simp [processTokens, hp, bind, Except.bind, pure, Except.pure], by simp⟩
      | some out =>
        obtain ⟨tags, trees⟩ := out
        have hr : Props.Returned nets vectorize ss tags trees := ⟨ok.nets, hv, cfg.parser, hk, hb, hp⟩
        obtain ⟨results, he⟩ := hall tags trees hr
        obtain ⟨q1, -⟩ := runMultithreads_of_ok cfg.rounding _ c.process results he cfg.nbCores hk
        rcases q1 cfg.schedLogic with q | q
        · exact ⟨none, by simp [processTokens, Logic.processAll, hp, q, bind, Except.bind, pure, Except.pure], by simp⟩
        · refine ⟨some results.unzip, by simp [processTokens, Logic.processAll, hp, q, bind, Except.bind, pure, Except.pure], ?_⟩
          intro dicts tl e
          refine ⟨tags, trees, results, hr, he, ?_⟩
          rw [List.unzip_eq_map] at e
          simp only [Option.some.injEq, Prod.mk.injEq] at e
          exact e.2.symm
  · intro hf
    obtain ⟨s₁, s₂, ⟨tags, trees⟩, hp⟩ := p2 cfg.schedVectorize cfg.schedTrees cfg.fuel hf
    rw [← hbe] at hp
    have hr : Props.Returned nets vectorize ss tags trees := ⟨ok.nets, hv, _, hk, hb, hp⟩
    obtain ⟨results, he⟩ := hall tags trees hr
    obtain ⟨-, q2⟩ := runMultithreads_of_ok cfg.rounding _ c.process results he cfg.nbCores hk
    obtain ⟨s₃, q⟩ := q2 cfg.schedLogic
    refine ⟨s₁, s₂, s₃, results.unzip, ?_⟩
    simp [processTokens, PipelineCfg.parser, Logic.processAll, hp, q, bind, Except.bind, pure, Except.pure]

/-- The part of the pipeline after sentencization. -/
def pipelineRest (cfg : PipelineCfg) (vectorize : List Str → Except PyErr (Nat × W)) (nets : Networks W) (c : Logic)
    (sentencized : List (List (List Str))) (chunk : Bool) : Except PyErr (Option (List Document)) := do
  match ← runMultithreads cfg.rounding sentencized (fun t => .ok (splitTokens t)) cfg.nbCores cfg.schedSplit with
  | none => return none
  | some groups =>
    match ← processTokens cfg vectorize nets c groups.flatten chunk with
    | none => return none
    | some (_, stupleLists) => return some (regroup (sentRanges 0 groups) stupleLists)

theorem pipelineCall_eq (cfg : PipelineCfg) (sentencizer : Str → Except PyErr (List (List Str)))
    (texts : List Str) (chunk : Bool) : pipelineCall cfg sentencizer vectorize nets c texts chunk =
      (do match ← runMultithreads cfg.rounding texts sentencizer cfg.nbCores cfg.schedSentencize with
          | none => return none
          | some ss => pipelineRest cfg vectorize nets c ss chunk) := rfl

/-- What the part after sentencization returns. -/
theorem pipelineRest_spec (ok : PipeOk nets vectorize c) (ss : List (List (List Str)))
    (chunk : Bool) (cfg : PipelineCfg) (hk : 0 < cfg.nbCores) (hb : 0 < cfg.batchSize) :
    (∃ r, pipelineRest cfg vectorize nets c ss chunk = .ok r ∧ ∀ docs, r = some docs →
      ∃ (tags : List (List Tag)) (trees : List (Option (Tree Dep Nat))) (results : List ((Heap × Dict Nat Ref) × List STuple))
        (tls : List (List (List STuple))), Props.Returned nets vectorize (ss.map splitTokens).flatten tags trees ∧
        (sentPacks (ss.map splitTokens).flatten tags trees chunk).mapM c.process = .ok results ∧
        tls.flatten = results.map Prod.snd ∧ tls.map List.length = ss.map (fun s => (splitTokens s).length) ∧
        docs = tls.map fun l => ⟨l.map Sentence.mk⟩) ∧
    (2 * maxSentLength ≤ cfg.fuel → ∃ s₀ s₁ s₂ s₃ out, pipelineRest { cfg with
      schedSplit := cfg.schedSplit ++ s₀, schedVectorize := cfg.schedVectorize ++ s₁,
      schedTrees := cfg.schedTrees ++ s₂, schedLogic := cfg.schedLogic ++ s₃ }
      vectorize nets c ss chunk = .ok (some out)) := by
  obtain ⟨a1, a2⟩ := runMultithreads_of_ok cfg.rounding ss (fun t => .ok (splitTokens t)) (ss.map splitTokens)
    (mapM_ok_map fun x _ => rfl) cfg.nbCores hk
  have hs : ∀ s ∈ (ss.map splitTokens).flatten, s.length ≤ 50 := by
    intro s h
    obtain ⟨g, h1, h2⟩ := List.mem_flatten.mp h
    obtain ⟨t, -, rfl⟩ := List.mem_map.mp h1
    exact splitTokens_length h2
  constructor
  · obtain ⟨⟨r, hr, hsp⟩, -⟩ := processTokens_spec ok hs chunk cfg hk hb
    rcases a1 cfg.schedSplit with e | e
    · exact ⟨none, by simp [pipelineRest, e, bind, Except.bind, pure, Except.pure], by simp⟩
    · cases r with
      | none => exact ⟨none, by simp [pipelineRest, e, hr, bind, Except.bind, pure, Except.pure], by simp⟩
      | some out =>
        obtain ⟨dicts, tl⟩ := out
        refine ⟨some (regroup (sentRanges 0 (ss.map splitTokens)) tl),
          by simp [pipelineRest, e, hr, bind, Except.bind, pure, Except.pure], ?_⟩
        intro docs hd
        obtain ⟨tags, trees, results, h1, h2, h3⟩ := hsp dicts tl rfl
        have hlen : tl.length = (ss.map splitTokens).flatten.length := by
          obtain ⟨al1, al2⟩ := Props.C41_parser_aligned nets vectorize _ tags trees h1
          have := al2.length_eq
          obtain ⟨ys, h4, h5⟩ := mapM_ok_of_forall (l := sentPacks (ss.map splitTokens).flatten tags trees chunk)
            (f := c.process) (by
              rintro ⟨tokens, tg, o, b⟩ hx
              obtain ⟨i, g1, g2, g3, -⟩ := mem_sentPacks hx
              exact process_ok h1 ok.logic g2 g3 (Returned.lengths ok hs h1 g1 g2) b)
          rw [h2] at h4
          cases h4
          rw [h3, List.length_map, h5]
          unfold sentPacks
          simp only [List.length_zip, List.length_replicate]
          omega
        obtain ⟨tls, g1, g2⟩ := exists_groups (ss.map splitTokens) tl hlen
        refine ⟨tags, trees, results, tls, h1, h2, by rw [g1, h3], by rw [g2, List.map_map]; rfl, ?_⟩
        have := regroup_eq (ss.map splitTokens) tls [] g2
        simp only [List.length_nil, List.nil_append, g1] at this
        rw [← Option.some.inj hd, this]
  · intro hf
    obtain ⟨-, h⟩ := processTokens_spec ok hs chunk cfg hk hb
    obtain ⟨s₁, s₂, s₃, ⟨dicts, tl⟩, h⟩ := h hf
    obtain ⟨s₀, e⟩ := a2 cfg.schedSplit
    refine ⟨s₀, s₁, s₂, s₃, regroup (sentRanges 0 (ss.map splitTokens)) tl, ?_⟩
    have h' : processTokens { cfg with
        schedSplit := cfg.schedSplit ++ s₀, schedVectorize := cfg.schedVectorize ++ s₁,
        schedTrees := cfg.schedTrees ++ s₂, schedLogic := cfg.schedLogic ++ s₃ } vectorize nets c
        (ss.map splitTokens).flatten chunk = .ok (some (dicts, tl)) := h
    unfold pipelineRest
    simp only [e, h', bind, Except.bind, pure, Except.pure]

end

end Model
