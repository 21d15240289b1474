import Verif.Props.NodeOrder
import Verif.Props.SimpleList

/-! C137: the list of tuples of a sentence with a property and several subjects. -/

namespace Props
open Py Model Spec

variable {ck : Bool} {c : Logic} {tokens : List Str} {tg : List Tag} {t : Tree Dep Nat} {ts : List STuple} {v s p : Nat} {w : Str}
  {A P : Nat → Argument}

theorem flatMap_sublist {α β : Type} {l l' : List α} {f : α → List β} (h : List.Sublist l l') (hn : l'.Nodup)
    (hf : ∀ x ∈ l', x ∉ l → f x = []) : l.flatMap f = l'.flatMap f := by
  induction h with
  | slnil => rfl
  | @cons l l' a h ih =>
    rw [List.nodup_cons] at hn
    rw [List.flatMap_cons, hf a (by simp) fun hm => hn.1 (h.subset hm), List.nil_append]
    exact ih hn.2 fun x hx => hf x (by simp [hx])
  | @cons_cons l l' a h ih =>
    rw [List.nodup_cons] at hn
    rw [List.flatMap_cons, List.flatMap_cons, ih hn.2]
    intro x hx hm
    refine hf x (by simp [hx]) ?_
    rw [List.mem_cons, not_or]
    exact ⟨fun e => hn.1 (e ▸ hx), hm⟩

/-- The nodes are those of some of the tokens, in the order of nodes. -/
theorem Reported.ordered (H : Reported ck c tokens tg t ts) (T : NeatParse t) : ∃ h h' nt nodes pos ks,
    Linked ck c tokens tg t h nt nodes pos ∧ ArgsFound h nt nodes h' ∧ Order.Lists h nt nodes h' ∧ nodes.Nodup ∧
    extractTuples c.pp h' nodes = .ok ts ∧ List.Sublist ks (nodeOrder t tokens.length) ∧
    List.Forall₂ (fun k r => (k, r) ∈ pos) ks nodes := by
  obtain ⟨hc, hl, ⟨W, S, nets, vectorize, sentences, tags, trees, i, hr, ht, hg⟩, st, hp⟩ := H
  obtain ⟨h, nt, pos, L, G, -, B, N, own, h₀, hn⟩ := Model.linked_lists hr hc ht hg hl hp (oneWord_refl t tokens tg)
  have noFlat : ∀ q x, (Dep.FLAT, x) ∉ t.children q := by
    intro q x hx
    rcases T q (.inl ⟨_, _, hx⟩) with k | k
    · exact k.down x hx
    · rw [k.1] at hx
      cases hx
  obtain ⟨arcs, I, -, -⟩ := hr.idxTree ht hg
  refine ⟨h, _, nt, _, pos, st.2.keys, L, G, B, N, process_extract hp,
    C136_node_order hr i t ht tg hg c.lower tokens hl _ _ _ hn (fun q x y k => absurd k (noFlat q x))
      (fun q x y k => absurd k (noFlat q x)), ?_⟩
  have : ∀ d : Dict Nat Ref, (∀ k r, (k, r) ∈ d → (k, r) ∈ pos) → List.Forall₂ (fun k r => (k, r) ∈ pos) d.keys d.values := by
    intro d
    induction d with
    | nil => intro _; exact .nil
    | cons a d ih => intro k; exact .cons (k a.1 a.2 (by simp)) (ih fun x r hx => k x r (by simp [hx]))
  exact this _ fun k r hk => own k r hk fun q hq => noFlat q k (I.child_of_parent hq)

/-- **C137.** "Foxes and hens are happy and red": subject by subject in the order of the nodes, and for each every coordinated
property without marker, in the order of the arcs. -/
theorem C137_copula (H : Reported ck c tokens tg t ts) (T : NeatParse t) (F : Frame t v s (some (.PROP, p)))
    (hv : tg[v]? = some .VERB) (hw : SaidBy c tokens tg t v w) (hs : Nouns t tg s) (hvp : p ≠ v) (hps : p ≠ s)
    (hA : ∀ x, Member t s x → Noun c tokens tg x (A x))
    (hP : ∀ x, Member t p x → Unmarked t x → Exactly.Given ck c tokens tg t x (P x)) :
    ts = (nodeOrder t tokens.length).flatMap fun i => ((together t s).filter (· = i)).flatMap fun s' =>
      ((together t p).filter (withoutMarker t)).map fun p' =>
        ⟨[A s', ⟨w, c!"C", affirmed [positive t s', positive t v, positive t p']⟩, P p']⟩ := by
  obtain ⟨h, h', nt, nodes, pos, ks, L, G, B, N, e, hsub, hk⟩ := H.ordered T
  obtain ⟨rv, rs, Rv, Rs⟩ := L.ends T F.subj (by decide)
  rw [copula_nodes L G B N e T F hv hw hs hvp hps hA hP, ← flatMap_sublist hsub (C136_no_repetition _ _)]
  · clear hsub N e B G
    have step : ∀ k r, (k, r) ∈ pos → ((together t s).filter fun s' => pos.get? s' = some r) = (together t s).filter (· = k) := by
      intro k r hkr
      refine List.filter_congr fun x _ => ?_
      by_cases hx : x = k
      · subst hx
        simp [L.get hkr]
      · have : pos.get? x ≠ some r := fun hg => hx (L.inj (Py.Dict.mem_of_get? hg) hkr)
        simp [hx, this]
    clear L Rs Rv
    induction hk with
    | nil => rfl
    | cons h1 _ ih => rw [List.flatMap_cons, List.flatMap_cons, ih, step _ _ h1]
  · intro x _ hx
    have : (together t s).filter (· = x) = [] := by
      refine List.filter_eq_nil_iff.mpr ?_
      intro y hy hyx
      simp only [decide_eq_true_eq] at hyx
      subst hyx
      obtain ⟨r, R⟩ := L.memberRef T Rs (mem_together.mp hy)
      have : ∀ {ks : List Nat} {ns : List Ref}, List.Forall₂ (fun k r => (k, r) ∈ pos) ks ns → r ∈ ns → y ∈ ks := by
        intro ks ns hf
        induction hf with
        | nil => intro hm; cases hm
        | cons h1 _ ih =>
          intro hm
          rcases List.mem_cons.mp hm with rfl | hm
          · rw [L.inj R.pos h1]; simp
          · exact List.mem_cons_of_mem _ (ih hm)
      exact hx (this hk R.mem)
    rw [this, List.flatMap_nil]

/-! ### Example -/

/-- "Foxes or formats and foxes are baked", with both coordinated to "foxes". -/
def manyBaked : Demo where
  tokens := [c!"Foxes", c!"or", c!"formats", c!"and", c!"foxes", c!"are", c!"baked"]
  tags := [.NOUN, .CONJ, .NOUN, .CONJ, .NOUN, .VERB, .ADJ]
  deps := [.SUBJ, .NODEP, .OR, .NODEP, .AND, .ROOT, .PROP]
  trans := [(0, 2, .RIGHT), (2, 4, .REDUCE), (0, 4, .RIGHT), (4, 5, .REDUCE), (0, 5, .LEFT), (5, 6, .RIGHT)]
  root := 5
  arcs := [(.OR, 0, 2), (.AND, 0, 4), (.SUBJ, 5, 0), (.PROP, 5, 6)]

theorem manyBaked_parsed : manyBaked.Parsed := by decide +kernel

/-- The subjects come in the order of the text, although the coordination by "and" is followed first. -/
example : together manyBaked.tree 0 = [0, 4, 2] ∧ manyBaked.tuples ck =
    [⟨[⟨c!"fox", c!"N", true⟩, ⟨c!"be", c!"C", true⟩, ⟨c!"baked", c!"L", true⟩]⟩,
      ⟨[⟨c!"format", c!"N", true⟩, ⟨c!"be", c!"C", true⟩, ⟨c!"baked", c!"L", true⟩]⟩,
      ⟨[⟨c!"fox", c!"N", true⟩, ⟨c!"be", c!"C", true⟩, ⟨c!"baked", c!"L", true⟩]⟩] := by
  refine ⟨by decide +kernel, ?_⟩
  have h := manyBaked_parsed
  have l0 : LemmaOf demoLogic manyBaked.tokens manyBaked.tags 0 c!"fox" :=
    ⟨c!"foxes", .NOUN, some .PLURAL, ⟨c!"Foxes", rfl, by decide +kernel⟩, rfl, by decide +kernel⟩
  have l2 : LemmaOf demoLogic manyBaked.tokens manyBaked.tags 2 c!"format" :=
    ⟨c!"formats", .NOUN, some .PLURAL, ⟨c!"formats", rfl, by decide +kernel⟩, rfl, by decide +kernel⟩
  have l4 : LemmaOf demoLogic manyBaked.tokens manyBaked.tags 4 c!"fox" :=
    ⟨c!"foxes", .NOUN, some .PLURAL, ⟨c!"foxes", rfl, by decide +kernel⟩, rfl, by decide +kernel⟩
  have l5 : LemmaOf demoLogic manyBaked.tokens manyBaked.tags 5 c!"be" :=
    ⟨c!"are", .VERB, none, ⟨c!"are", rfl, by decide +kernel⟩, rfl, by decide +kernel⟩
  have l6 : LemmaOf demoLogic manyBaked.tokens manyBaked.tags 6 c!"baked" :=
    ⟨c!"baked", .ADJ, none, ⟨c!"baked", rfl, by decide +kernel⟩, rfl, by decide +kernel⟩
  have := C137_copula (v := 5) (s := 0) (p := 6) (w := c!"be")
    (A := fun x => if x = 2 then ⟨c!"format", c!"N", true⟩ else ⟨c!"fox", c!"N", true⟩) (P := fun _ => ⟨c!"baked", c!"L", true⟩)
    (Demo.reported (ck := ck) h) (Demo.neat h (by decide)) (Demo.frame h (by decide)) rfl
    ⟨_, [], rfl, l5, Demo.noParts h (by decide), rfl⟩ (Demo.nouns h (by decide)) (by decide) (by decide) (by
      intro x hx
      rw [Demo.member h] at hx
      have : x = 0 ∨ x = 2 ∨ x = 4 := by revert hx; simp [manyBaked]; tauto
      rcases this with rfl | rfl | rfl
      · exact (common_noun l0 rfl).mpr rfl
      · exact (common_noun l2 rfl).mpr rfl
      · exact (common_noun l4 rfl).mpr rfl) (by
      intro x hx _
      rw [Demo.member h] at hx
      have : x = 6 := by revert hx; simp [manyBaked]
      subst this
      refine ⟨.ADJ, .inr rfl, ?_, .inl ⟨rfl, .inl ⟨rfl, rfl, c!"bake", by decide, ?_⟩⟩, rfl⟩
      · exact .particles (ps := []) (.same l6 rfl fun _ => ⟨fun k => absurd k (by decide), fun _ => by decide +kernel⟩) (.inr rfl) l6 (Demo.noParts h (by decide))
      · exact ⟨Demo.word h (by decide), c!"baked", c!"bake", [], ⟨c!"baked", rfl, by decide +kernel⟩, by decide +kernel,
          Demo.noParts h (by decide), rfl⟩)
  rw [this]
  decide +kernel

end Props
