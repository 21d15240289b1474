import Verif.Lemmas.Statements
import Verif.Lemmas.Provenance
import Verif.Props.Provenance
import Verif.Spec.Voice

/-! What active and passive forms need to know about the nodes of a sentence. -/

namespace Model
open Py Spec

variable {W S : Type} {nets : Networks W} {vectorize : S → Except PyErr (Nat × W)} {sentences : List S}
  {tags : List (List Tag)} {trees : List (Option (Tree Dep Nat))} {ck : Bool} {c : Logic}

structure VoiceFacts (c : Logic) (tokens : List Str) (tg : List Tag) (t : Tree Dep Nat) (h : Heap) (nodes : List Ref) : Prop where
  verb : ∀ r ∈ nodes, (h.node r).tag = .VERB → BaseForm c tokens (h.node r).lem ∧ Particles c tokens (h.node r).particles ∧
    (h.node r).canon = List.intercalate c!" " ((h.node r).lem :: (h.node r).particles)
  adj : ∀ r w, (h.node r).activeVerb = some w → Voices c tokens w (h.node r).canon
  obj : ∀ v o, o ∈ (h.node v).objs → (h.node o).tag = .VERB → o ∈ nodes
  neg : OnlyVerbsNegated tg t → ∀ r, (h.node r).isAff = false → (h.node r).tag = .VERB ∧
    ∀ n p, (r, p) ∉ (h.node n).copulasProps

theorem voiced (h : Props.Returned nets vectorize sentences tags trees) (hc : LogicOk c) {i : Nat} {t : Tree Dep Nat}
    (ht : trees[i]? = some (some t)) {tg : List Tag} (hg : tags[i]? = some tg) {tokens : List Str}
    (hl : tokens.length = tg.length) {st : Heap × Dict Nat Ref} {ts : List STuple}
    (hp : c.process (tokens, tg, some t, ck) = .ok (st, ts)) :
    VoiceFacts c tokens tg t st.1 st.2.values ∧ ∀ x, x ∈ ts ↔ Said c.pp st.1 st.2.values x.args := by
  have hlab := fun {w p p' : Nat} {d d' : Dep} => arc_label (w := w) (p := p) (p' := p') (d := d) (d' := d') h ht
  obtain ⟨arcs, H, h1, h2⟩ := h.idxTree ht hg
  rw [← hl] at H
  obtain ⟨s, nt, dict, e, inv, hall, hbl, -, hb, -, hd⟩ := nodify_spec (lower := c.lower) H hl.symm h1 h2
  obtain ⟨-, hnd, -⟩ := Props.C53_node_indexes h i t ht tg hg c.lower tokens hl _ _ _ e
  obtain ⟨h₁, h₂, h₃, h₄, h₅, ts', g1, s1, s2, sc, s3, s4, ⟨s5, -⟩, s6⟩ := Logic.process_some hc e hb hnd ck
  rw [hp] at g1
  obtain ⟨rfl, rfl⟩ := Prod.mk.inj (Except.ok.inj g1)
  have ninv := buildTree_inv hb
  have harc : ∀ {d r r'}, (d, r') ∈ nt.children r ↔ ∃ k k', (k, r) ∈ s.dict ∧ (k', r') ∈ s.dict ∧ (d, k') ∈ t.children k := by
    intro d r r'
    rw [ninv.mem_children, mem_nodeArcs inv.wf]
  have parMem : ∀ {d r r'}, nt.parent r' = some (d, r) → (d, r') ∈ nt.children r := by
    intro d r r' hpar
    rw [ninv.parent] at hpar
    rw [ninv.mem_children]
    exact lastParent_mem hpar
  have nodeLabel : ∀ {d d' r r' x}, (d, x) ∈ nt.children r → (d', x) ∈ nt.children r' → d = d' := by
    intro d d' r r' x a b
    obtain ⟨_, k, -, k1, k2⟩ := harc.mp a
    obtain ⟨_, k', -, k3, k4⟩ := harc.mp b
    have := inv.key_unique k1 k3
    subst this
    exact hlab k2 k4
  have listed : ∀ {d r x}, (d, x) ∈ nt.children r → d ∉ functionalDeps → x ∈ Dict.values dict := by
    intro d r x hx hf
    obtain ⟨_, k, -, k1, -⟩ := harc.mp hx
    refine mem_values ((hd _ x).mpr ⟨⟨_, k1⟩, rfl, ?_⟩)
    rw [Bool.eq_false_iff]
    intro hf'
    unfold Tree.hasParentViaSet at hf'
    split at hf'
    · rename_i q hq
      have hq' : nt.parent x = some (q.1, q.2) := hq
      have := nodeLabel (parMem hq') hx
      exact hf (this ▸ (of_decide_eq_true hf' : q.1 ∈ functionalDeps))
    · cases hf'
  have raw : ∀ r ∈ Dict.values dict, Raw c tokens (s.heap.node r) := by
    obtain ⟨pos, -, -, p3, -, p5, -⟩ := Props.C77_node_contents h i t ht tg hg c.lower tokens hl _ dict nt e
    have keep := nodify_keeps (fun n => n.lem = n.standard ∧ n.canon = n.standard ∧ n.activeVerb = none) ⟨rfl, rfl, rfl⟩
      (fun _ _ _ => ⟨rfl, rfl, rfl⟩) (fun _ _ h => h) (fun _ h => h) e
    exact fun r hr => Props.raw_nodes p5 keep r (p3 r hr)
  obtain ⟨tag, f1, f2⟩ := s2
  have same3 : ∀ r, ∃ ch, h₃.node r = { h₂.node r with chunk := ch } := by
    intro r
    cases ck with
    | false => rw [s3 rfl]; exact ⟨_, rfl⟩
    | true =>
      by_cases k : r ∈ Dict.values dict ∧ (∃ x, Compound h₂ nt (Dict.values dict) x r) ∧
          ∀ p, ¬ Compound h₂ nt (Dict.values dict) r p
      · obtain ⟨ns, -, e⟩ := (sc rfl r).1 k.1 k.2.1 k.2.2
        exact ⟨_, e⟩
      · rw [(sc rfl r).2 (by
          by_contra hk
          push Not at hk
          exact k hk)]
        exact ⟨_, rfl⟩
  choose ch same3 using same3
  have at3 : ∀ r ∈ Dict.values dict, ∃ sp l x, standardize c.lemmatizer.lm (s.heap.node r).standard = .ok sp ∧
      c.lemmatizer.call sp (s.heap.node r).tag = .ok (l, x) ∧
      h₃.node r = { s.heap.node r with standard := sp, lem := l, suffix := x, tag := tag r, chunk := ch r } := by
    intro r hr
    obtain ⟨sp, l, x, q1, q2, q3⟩ := (s1 r).2 hr
    exact ⟨sp, l, x, q1, q2, by rw [same3, f1, q3]⟩
  have at5 : ∀ r, (h₅.node r).lem = (h₄.node r).lem ∧ (h₅.node r).particles = (h₄.node r).particles ∧
      (h₅.node r).canon = (h₄.node r).canon ∧ (h₅.node r).tag = (h₄.node r).tag ∧
      (h₅.node r).activeVerb = (h₄.node r).activeVerb := by
    intro r
    obtain ⟨_, _, _, _, _, _, _, _, _, _, _, _, _, _, e⟩ := s5.same r
    rw [e]
    exact ⟨rfl, rfl, rfl, rfl, rfl⟩
  refine ⟨⟨?_, ?_, ?_, ?_⟩, s6⟩
  · intro r hr hv
    obtain ⟨sp, l, x, q1, q2, q3⟩ := at3 r hr
    obtain ⟨a1, a2, a3, a4, -⟩ := at5 r
    have R := raw r hr
    have fr := (Props.C40_frame _ _ ((s4 r).2 hr)).1
    have cn := Props.C40_canon _ _ ((s4 r).2 hr)
    have l4 : (h₄.node r).lem = l := by rw [fr]; simp [q3]
    have p4 : (h₄.node r).particles = (s.heap.node r).particles := by rw [fr]; simp [q3]
    have t4 : (h₄.node r).tag = tag r := by rw [fr]; simp [q3]
    rw [a4, t4] at hv
    rw [a1, a2, a3, cn, l4, p4]
    refine ⟨R.base q1 _ q2, R.particles, ?_⟩
    simp only [q3, hv, Props.canonOf]
  · intro r w hw
    rw [(at5 r).2.2.2.2] at hw
    by_cases hr : r ∈ Dict.values dict
    swap
    · exfalso
      have keep := nodify_keeps (fun n => n.activeVerb = none) rfl (fun _ _ _ => rfl) (fun _ _ h => h) (fun _ h => h) e r
      rw [(s4 r).1 hr, same3, f1, (s1 r).1 hr] at hw
      simp only [keep] at hw
      cases hw
    obtain ⟨sp, l, x, q1, q2, q3⟩ := at3 r hr
    obtain ⟨a1, a2, a3, a4, -⟩ := at5 r
    have R := raw r hr
    by_cases hA : (h₃.node r).tag = .ADJ
    swap
    · exfalso
      rw [((Props.C40_frame _ _ ((s4 r).2 hr)).2 hA).2, q3] at hw
      simp only [R.active] at hw
      cases hw
    have cn := Props.C40_canon _ _ ((s4 r).2 hr)
    obtain ⟨l', x', k1, -, k3⟩ := Props.C40_adjective _ _ hA ((s4 r).2 hr)
    rw [k3] at hw
    split at hw
    swap
    · exfalso
      rw [q3] at hw
      simp only [R.active] at hw
      cases hw
    rename_i hx
    subst hx
    have hw := (Option.some.inj hw).symm
    have t3 : tag r = .ADJ := by rw [q3] at hA; exact hA
    refine ⟨l', l, (s.heap.node r).particles, R.particles, ?_, ?_, .inr ⟨_, sp, _, _, R.text, R.standard ▸ q1, ?_, q2⟩⟩
    · rw [hw, q3]
    · rw [a3, cn]
      simp only [q3, t3, Props.canonOf]
    · rw [q3] at k1
      exact k1
  · intro v o ho hv
    rw [s5.objs] at ho
    have conj : ∀ {x y : Ref}, Conjunct nt (Dict.values dict) x y → y ∈ Dict.values dict := by
      rintro x y ⟨-, k | k⟩ <;> exact listed k (by decide)
    have first : ∀ {p x}, FirstChild nt p .SUBJ x → x ∈ Dict.values dict := by
      intro p x hx
      refine listed (d := .SUBJ) (r := p) ?_ (by decide)
      have := List.mem_of_head? hx
      rw [← ninv.children_filter] at this
      simp only [List.mem_map, List.mem_filter, decide_eq_true_eq, Prod.exists] at this
      obtain ⟨a, b, ⟨k1, rfl⟩, rfl⟩ := this
      exact k1
    rw [(at5 o).2.2.2.1] at hv
    rcases ho with ⟨verb, node, ref, n1, n2, n3, n4, -⟩ | ⟨verb, p, subj, -, -, -, n4, -, -, -, n8, -⟩
    · rcases n4 with rfl | n4
      · rcases n3 with n3 | ⟨-, n3⟩ | ⟨-, -, n3⟩
        · have := n3.2.2.2.1
          rw [hv] at this
          simp [nominal] at this
        · exact first n3.2
        · exact n3 ▸ n1
      · exact conj n4
    · rcases n8 with rfl | n8
      · rw [hv] at n4
        simp [nominal] at n4
      · exact conj n8
  · intro hneg r hr
    obtain ⟨hm, x, hx⟩ := (s5.aff r).mp hr
    obtain ⟨k, k', k1, k2, k3⟩ := harc.mp hx
    obtain ⟨b1, b2⟩ := hneg _ _ k3
    have he := inv.ent k r k1
    have htag : (s.heap.node r).tag = .VERB := by
      rcases he.kind with ⟨a1, -⟩ | ⟨_, _, _, _, up, _, a5, _⟩
      · have := he.tag
        rw [a1, b1] at this
        exact (Option.some.inj this).symm
      · exfalso
        obtain ⟨z, hz⟩ := upChain_mem a5 k (by simp)
        rw [H.inv.parent] at hz
        exact (b2 z).2 ((H.inv.mem_children _ _ _).mpr (lastParent_mem hz))
    obtain ⟨sp, l, y, q1, q2, q3⟩ := (s1 r).2 hm
    constructor
    · rw [(at5 r).2.2.2.1, (Props.C40_frame _ _ ((s4 r).2 hm)).1]
      simp only [same3, f1]
      have t1 : (h₁.node r).tag = .VERB := by rw [q3]; exact htag
      rw [(f2 r).2.2 (.inr (.inr (.inl (by rw [t1]; simp [nominal])))), t1]
    · intro n p hcp
      obtain ⟨node, subj, ref, -, m2, -⟩ := (s5.copulas _ _ _).mp hcp
      obtain ⟨j, j', j1, j2, j3⟩ := harc.mp (parMem m2)
      have := inv.key_unique j1 k1
      subst this
      exact (b2 _).1 j3

end Model
