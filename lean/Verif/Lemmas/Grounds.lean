import Verif.Lemmas.Clauses
import Verif.Spec.Grounds

/-! Lemmas for what a parse must contain for a tuple to be reported. -/

namespace Model
open Py Spec

variable {ck : Bool} {c : Logic} {tokens : List Str} {tg : List Tag} {t : Tree Dep Nat} {h h' : Heap} {nt : Tree Dep Ref}
  {nodes : List Ref} {pos : Dict Nat Ref}

theorem _root_.Spec.NeatParse.clean (T : NeatParse t) : Clean t := fun k hk =>
  (T k hk).imp id fun ⟨_, d, p, h1, h2, h3⟩ => ⟨d, p, h1, h2, h3⟩

/-- The node of a word. -/
structure At (t : Tree Dep Nat) (nodes : List Ref) (pos : Dict Nat Ref) (k : Nat) (r : Ref) : Prop where
  pos : (k, r) ∈ pos
  word : Word t k
  mem : r ∈ nodes

theorem Linked.at_word (L : Linked ck c tokens tg t h nt nodes pos) {k : Nat} {r : Ref} (hk : (k, r) ∈ pos) (hw : Word t k) :
    At t nodes pos k r := by
  obtain ⟨r', -, -, -, -, k1, k2, -⟩ := L.word hw
  cases L.fn k1 hk
  exact ⟨hk, hw, k2⟩

theorem Linked.at_mem (L : Linked ck c tokens tg t h nt nodes pos) (T : NeatParse t) {r : Ref} (hr : r ∈ nodes) :
    ∃ k, At t nodes pos k r := by
  obtain ⟨k, hk⟩ := L.mem r hr
  exact ⟨k, hk, L.isWord T.clean hk hr, hr⟩

/-- Arcs by labels that are not of function words connect words. -/
theorem Linked.words (L : Linked ck c tokens tg t h nt nodes pos) (T : NeatParse t) {d : Dep} {k x : Nat} (ha : (d, x) ∈ t.children k)
    (hd : d ∉ functional) : Word t k ∧ Word t x := by
  constructor
  · rcases T k (Or.inl ⟨d, x, ha⟩) with w | ⟨e, -⟩
    · exact w
    · rw [e] at ha; cases ha
  · rcases T x (Or.inr ⟨d, k, ha⟩) with w | ⟨-, d', p, h1, h2, -⟩
    · exact w
    · rw [L.label ha h2] at hd; exact absurd h1 hd

theorem Linked.arcs (L : Linked ck c tokens tg t h nt nodes pos) (T : NeatParse t) {d : Dep} {r r' : Ref}
    (ha : (d, r') ∈ nt.children r) (hd : d ∉ functional) :
    ∃ k k', At t nodes pos k r ∧ At t nodes pos k' r' ∧ (d, k') ∈ t.children k := by
  obtain ⟨k, k', h1, h2, h3⟩ := L.arc.mp ha
  obtain ⟨w, w'⟩ := L.words T h3 hd
  exact ⟨k, k', L.at_word h1 w, L.at_word h2 w', h3⟩

theorem Linked.down (L : Linked ck c tokens tg t h nt nodes pos) (T : NeatParse t) {d : Dep} {k : Nat} {r r' : Ref}
    (ha : (d, r') ∈ nt.children r) (hk : (k, r) ∈ pos) (hd : d ∉ functional) :
    ∃ k', At t nodes pos k' r' ∧ (d, k') ∈ t.children k := by
  obtain ⟨k₁, k', h1, h2, h3⟩ := L.arcs T ha hd
  cases L.inj h1.pos hk
  exact ⟨k', h2, h3⟩

theorem Linked.up (L : Linked ck c tokens tg t h nt nodes pos) (T : NeatParse t) {d : Dep} {k : Nat} {r r' : Ref}
    (ha : nt.parent r' = some (d, r)) (hk : (k, r') ∈ pos) (hd : d ∉ functional) :
    ∃ p, At t nodes pos p r ∧ (d, k) ∈ t.children p := by
  obtain ⟨p, k₁, h1, h2, h3⟩ := L.arcs T (L.parMem ha) hd
  cases L.inj h2.pos hk
  exact ⟨p, h1, h3⟩

theorem Linked.firstChild (L : Linked ck c tokens tg t h nt nodes pos) (T : NeatParse t) {d : Dep} {k : Nat} {r r' : Ref}
    (ha : FirstChild nt r d r') (hk : (k, r) ∈ pos) (hd : d ∉ functional) :
    ∃ k', At t nodes pos k' r' ∧ (d, k') ∈ t.children k :=
  L.down T (L.viaMem.mp (List.mem_of_mem_head? ha)) hk hd

theorem Linked.lacks (L : Linked ck c tokens tg t h nt nodes pos) {d : Dep} {k : Nat} {r : Ref} (hk : (k, r) ∈ pos)
    (hd : d ≠ .FLAT ∧ d ≠ .PART) (hn : ¬ HasChild nt r d) : Lacks t k d := by
  intro x hx
  obtain ⟨r', hr⟩ := L.has hx hd.1 hd.2
  exact hn ⟨r', L.arc.mpr ⟨_, _, hk, hr, hx⟩⟩

theorem Linked.member (L : Linked ck c tokens tg t h nt nodes pos) (T : NeatParse t) {i : Nat} {r r' : Ref} (hi : At t nodes pos i r)
    (hg : Group nt nodes r r') : ∃ j, At t nodes pos j r' ∧ Member t i j := by
  rcases hg with rfl | ⟨-, hg | hg⟩
  · exact ⟨i, hi, Or.inl rfl⟩
  · obtain ⟨j, h1, h2⟩ := L.down T hg hi.pos (by decide)
    exact ⟨j, h1, Or.inr (Or.inl h2)⟩
  · obtain ⟨j, h1, h2⟩ := L.down T hg hi.pos (by decide)
    exact ⟨j, h1, Or.inr (Or.inr h2)⟩

theorem Linked.notMarked (L : Linked ck c tokens tg t h nt nodes pos) {k : Nat} {r : Ref} (hk : (k, r) ∈ pos)
    (hn : ¬ HasMarker nt r) : Unmarked t k := by
  have h1 := L.lacks (d := .MARK) hk (by decide) fun x => hn (Or.inl x)
  have h2 := L.lacks (d := .CMARK) hk (by decide) fun x => hn (Or.inr (Or.inl x))
  have h3 := L.lacks (d := .IMARK) hk (by decide) fun x => hn (Or.inr (Or.inr x))
  intro d x hx
  refine ⟨?_, ?_, ?_⟩ <;> rintro rfl
  · exact h1 _ hx
  · exact h2 _ hx
  · exact h3 _ hx

/-! ### Words -/

theorem Linked.taken (L : Linked ck c tokens tg t h nt nodes pos) {k : Nat} {r : Ref} (hk : At t nodes pos k r) :
    TakenAs c tokens tg k (h.node r).tag := by
  obtain ⟨r', s, tag, l, x, k1, k2, k3, k4, k5, k6, k7, k8, k9, k10, k11⟩ := L.word hk.word
  cases L.fn k1 hk.pos
  refine ⟨l, tag, ⟨s, tag, x, k3, k4, k5⟩, k4, ?_⟩
  rcases k9 with k9 | ⟨-, -, k9 | k9⟩
  · exact Or.inl k9
  · exact Or.inr (Or.inl k9)
  · exact Or.inr (Or.inr k9)

theorem Linked.verbTag (L : Linked ck c tokens tg t h nt nodes pos) {k : Nat} {r : Ref} (hk : At t nodes pos k r)
    (ht : (h.node r).tag = .VERB) : tg[k]? = some .VERB := by
  obtain ⟨l, tag, h1, h2, h3⟩ := L.taken hk
  rw [ht] at h3
  rcases h3 with h3 | ⟨-, -, h3⟩ | ⟨-, -, h3⟩
  · rw [h2, h3]
  · cases h3
  · cases h3

theorem Linked.chunkOf (L : Linked ck c tokens tg t h nt nodes pos) (T : NeatParse t) {k : Nat} {r : Ref} (hk : At t nodes pos k r)
    {w : Str} (hw : (h.node r).chunk = some w) : ck = true ∧ ChunkOf c tokens tg t k w := by
  have hck : ck = true := by
    by_contra hck
    rw [L.unchunked (by simpa using hck) r] at hw
    cases hw
  refine ⟨hck, ?_⟩
  obtain ⟨c1, c2⟩ := L.chunk hck r hk.mem
  by_cases hx : (∃ x, Compound h nt nodes x r) ∧ ∀ p, ¬ Compound h nt nodes r p
  swap
  · rw [c2 (by by_cases h0 : ∃ x, Compound h nt nodes x r
               · exact Or.inr (by by_contra h1; exact hx ⟨h0, fun p hp => h1 ⟨p, hp⟩⟩)
               · exact Or.inl fun x hx => h0 ⟨x, hx⟩)] at hw
    cases hw
  obtain ⟨ns, n1, n2⟩ := c1 hx.1 hx.2
  rw [n2] at hw
  have up : ∀ {n}, n = r ∨ Relation.TransGen (Compound h nt nodes) n r →
      ∃ j, At t nodes pos j n ∧ Relation.ReflTransGen (LeftCpl t) k j := by
    intro n hn
    rcases hn with rfl | hn
    · exact ⟨k, hk, .refl⟩
    have step : ∀ {x y}, Compound h nt nodes x y → (∃ j, At t nodes pos j y ∧ Relation.ReflTransGen (LeftCpl t) k j) →
        ∃ j, At t nodes pos j x ∧ Relation.ReflTransGen (LeftCpl t) k j := by
      rintro x y C ⟨j, hj, hr⟩
      obtain ⟨i, i1, i2⟩ := L.down T (L.parMem C.arc) hj.pos (by decide)
      have := (L.order i1.word hj.word i1.pos hj.pos).mp C.before
      exact ⟨i, i1, hr.tail ⟨i2, this⟩⟩
    induction hn using Relation.TransGen.head_induction_on with
    | single C => exact step C ⟨k, hk, .refl⟩
    | head C _ ih => exact step C ih
  have at_ : ∀ n ∈ ns, ∃ j, At t nodes pos j n ∧ Relation.ReflTransGen (LeftCpl t) k j := fun n hn => up ((n1.mem n).mp hn)
  obtain ⟨f, hidx⟩ : ∃ f : Ref → Nat, ∀ n ∈ ns, At t nodes pos (f n) n ∧ Relation.ReflTransGen (LeftCpl t) k (f n) := by
    classical
    exact ⟨fun n => if h : n ∈ ns then (at_ n h).choose else 0, fun n hn => by
      simp only [dif_pos hn]; exact (at_ n hn).choose_spec⟩
  refine ⟨ns.map f, ns.map fun n => (h.node n).lem, ?_, ?_, ?_, ?_, ?_⟩
  · have hnd : (ns.map f).Nodup := by
      refine (List.nodup_map_iff_inj_on n1.once).mpr fun x hx y hy e => ?_
      have := (hidx x hx).1.pos
      rw [e] at this
      exact L.fn this (hidx y hy).1.pos
    have hp : (ns.map f).Pairwise (· ≤ ·) := by
      rw [List.pairwise_map]
      refine n1.order.imp_of_mem fun {a b} ha hb hab => ?_
      by_contra hc
      have := (L.order (hidx b hb).1.word (hidx a ha).1.word (hidx b hb).1.pos (hidx a ha).1.pos).mpr (by omega)
      omega
    exact (hp.and hnd).imp fun k => Nat.lt_of_le_of_ne k.1 k.2
  · have hr : r ∈ ns := (n1.mem r).mpr (Or.inl rfl)
    rw [List.getLast?_map, n1.rootLast, Option.map_some, L.inj (hidx r hr).1.pos hk.pos]
  · intro j hj
    obtain ⟨n, hn, rfl⟩ := List.mem_map.mp hj
    exact (hidx n hn).2
  · rw [List.forall₂_map_left_iff, List.forall₂_map_right_iff, List.forall₂_same]
    intro n hn
    exact (L.lem (hidx n hn).1.word (hidx n hn).1.pos).2
  · rw [← Option.some.inj hw, join_eq_intercalate]

theorem Linked.writtenAs (L : Linked ck c tokens tg t h nt nodes pos) (T : NeatParse t) {k : Nat} {r : Ref} (hk : At t nodes pos k r) :
    WrittenAs ck c tokens tg t k (h.node r).tag (h.node r).canon := by
  obtain ⟨r', s, tag, l, x, k1, k2, k3, k4, k5, k6, k7, k8, k9, k10, k11⟩ := L.word hk.word
  cases L.fn k1 hk.pos
  refine ⟨l, tag, _, ⟨s, tag, x, k3, k4, k5⟩, k4, ?_, k7, ?_⟩
  · rcases k9 with k9 | ⟨-, -, k9 | k9⟩
    · exact Or.inl k9
    · exact Or.inr (Or.inl k9)
    · exact Or.inr (Or.inr k9)
  rw [k10]
  cases e : (h.node r).tag <;> dsimp only [Props.canonOf] <;> first
    | exact Or.inl ⟨by decide, rfl⟩
    | exact Or.inr (Or.inl ⟨rfl, rfl⟩)
    | exact Or.inr (Or.inr (Or.inl ⟨by decide, by decide, by decide, rfl⟩))
    | skip
  split
  · rename_i cc w he
    exact Or.inr (Or.inr (Or.inr (by obtain ⟨h1, h2⟩ := L.chunkOf T hk he; exact ⟨h1, rfl, h2⟩)))
  · exact Or.inr (Or.inr (Or.inl ⟨by decide, by decide, by decide, rfl⟩))

theorem Linked.relativePron (L : Linked ck c tokens tg t h nt nodes pos) (T : NeatParse t) {k v : Nat} {r rv p : Ref} {d : Dep}
    (hk : At t nodes pos k r) (hv : At t nodes pos v rv) (ha : (d, k) ∈ t.children v) (hR : RelReferent h nt rv r p) :
    ∃ n, At t nodes pos n p ∧ Relative ck c tokens tg t d v k n := by
  obtain ⟨h1, h2, h3, h4, h5⟩ := hR
  obtain ⟨n, n1, n2⟩ := L.up T h3 hv.pos (by decide)
  have hw := L.writtenAs T hk
  rw [h1] at hw
  exact ⟨n, n1, ha, ⟨_, hw, by rcases h2 with e | e | e <;> rw [e] <;> decide⟩, n2, L.notMarked hv.pos h5, _, h4, L.taken n1⟩

theorem Linked.reflexivePron (L : Linked ck c tokens tg t h nt nodes pos) (T : NeatParse t) {k : Nat} {r : Ref}
    (hk : At t nodes pos k r) (hR : Reflexive h r) : ReflexivePron ck c tokens tg t k := ⟨_, _, L.writtenAs T hk, hR⟩

theorem Linked.acts (L : Linked ck c tokens tg t h nt nodes pos) (T : NeatParse t) {v : Nat} {rv rs : Ref} (hv : At t nodes pos v rv)
    (H : SubjOf h nt nodes rv rs) : ∃ s, At t nodes pos s rs ∧ Acts ck c tokens tg t v s := by
  have share : ∀ {v₀ : Nat} {r₀ : Ref}, At t nodes pos v₀ r₀ → SharesSubj nt nodes r₀ rv → v = v₀ ∨ Member t v₀ v ∧ Lacks t v .SUBJ := by
    rintro v₀ r₀ h₀ (rfl | ⟨hc, hn⟩)
    · exact Or.inl (L.inj hv.pos h₀.pos)
    · obtain ⟨j, h1, h2⟩ := L.member T h₀ (Or.inr hc)
      cases L.inj h1.pos hv.pos
      exact Or.inr ⟨h2, L.lacks hv.pos (by decide) hn⟩
  rcases H with ⟨verb, node, ref, hn, hp, hm, hg, hs⟩ | ⟨verb, p, subj, hn, hp, hm, ht, hns, htp, hf, hg, hs⟩
  · obtain ⟨i, hi⟩ := L.at_mem T hn
    obtain ⟨v₀, h₀, a₀⟩ := L.up T hp hi.pos (by decide)
    have : ∃ s₀, At t nodes pos s₀ ref ∧ Subject ck c tokens tg t v₀ s₀ := by
      rcases hm with hm | ⟨-, hr, q, q1, q2, q3⟩ | ⟨-, -, rfl⟩
      · obtain ⟨n, n1, n2⟩ := L.relativePron T hi h₀ a₀ hm
        exact ⟨n, n1, .relative n2⟩
      · obtain ⟨p, p1, p2⟩ := L.up T q1 h₀.pos (by decide)
        obtain ⟨s, s1, s2⟩ := L.firstChild T q3 p1.pos (by decide)
        exact ⟨s, s1, .self a₀ (L.reflexivePron T hi hr) p2 (L.verbTag p1 q2) s2⟩
      · exact ⟨i, hi, .own a₀⟩
    obtain ⟨s₀, s1, s2⟩ := this
    obtain ⟨s, m1, m2⟩ := L.member T s1 hg
    exact ⟨s, m1, v₀, s₀, s2, m2, share h₀ hs⟩
  · obtain ⟨v₀, h₀⟩ := L.at_mem T hn
    obtain ⟨p', p1, p2⟩ := L.up T hp h₀.pos (by decide)
    obtain ⟨s₀, s1, s2⟩ := L.firstChild T hf p1.pos (by decide)
    obtain ⟨s, m1, m2⟩ := L.member T s1 hg
    obtain ⟨rm, hm⟩ := hm
    obtain ⟨m, -, m3⟩ := L.child h₀.pos hm
    exact ⟨s, m1, v₀, s₀, .marked p2 m3 (L.lacks h₀.pos (by decide) hns) (L.verbTag h₀ ht) (L.verbTag p1 htp) s2, m2, share h₀ hs⟩

theorem Linked.undergoes (L : Linked ck c tokens tg t h nt nodes pos) (T : NeatParse t) {v : Nat} {rv rs : Ref}
    (hv : At t nodes pos v rv) (H : ObjOf h nt nodes rv rs) : ∃ s, At t nodes pos s rs ∧ Undergoes ck c tokens tg t v s := by
  have share : ∀ {v₀ : Nat} {r₀ : Ref}, At t nodes pos v₀ r₀ → SharesObj nt nodes r₀ rv →
      v = v₀ ∨ Member t v₀ v ∧ ∀ d x, (d, x) ∈ t.children v → d = .PART := by
    rintro v₀ r₀ h₀ (rfl | ⟨hc, hn⟩)
    · exact Or.inl (L.inj hv.pos h₀.pos)
    · obtain ⟨j, h1, h2⟩ := L.member T h₀ (Or.inr hc)
      cases L.inj h1.pos hv.pos
      refine Or.inr ⟨h2, fun d x hx => ?_⟩
      by_contra hd
      refine L.lacks hv.pos (d := d) ⟨?_, hd⟩ (fun ⟨y, hy⟩ => by rw [hn] at hy; cases hy) x hx
      rintro rfl
      exact hv.word.down _ hx
  rcases H with ⟨verb, node, ref, hn, hp, hm, hg, hs⟩ | ⟨verb, p, subj, hn, hp, hm, ht, hno, hf, hc, hg, hs⟩
  · obtain ⟨i, hi⟩ := L.at_mem T hn
    obtain ⟨v₀, h₀, a₀⟩ := L.up T hp hi.pos (by decide)
    have : ∃ s₀, At t nodes pos s₀ ref ∧ Object ck c tokens tg t v₀ s₀ := by
      rcases hm with hm | ⟨-, hr, q⟩ | ⟨-, -, rfl⟩
      · obtain ⟨n, n1, n2⟩ := L.relativePron T hi h₀ a₀ hm
        exact ⟨n, n1, .relative n2⟩
      · obtain ⟨s, s1, s2⟩ := L.firstChild T q h₀.pos (by decide)
        exact ⟨s, s1, .self a₀ (L.reflexivePron T hi hr) s2⟩
      · exact ⟨i, hi, .own a₀⟩
    obtain ⟨s₀, s1, s2⟩ := this
    obtain ⟨s, m1, m2⟩ := L.member T s1 hg
    exact ⟨s, m1, v₀, s₀, s2, m2, share h₀ hs⟩
  · obtain ⟨v₀, h₀⟩ := L.at_mem T hn
    obtain ⟨p', p1, p2⟩ := L.up T hp h₀.pos (by decide)
    obtain ⟨s₀, s1, s2⟩ := L.firstChild T hf h₀.pos (by decide)
    obtain ⟨s, m1, m2⟩ := L.member T p1 hg
    exact ⟨s, m1, v₀, p', .bare p2 (L.notMarked h₀.pos hm) (L.lacks h₀.pos (by decide) hno) s2 (L.taken p1) ht, m2, share h₀ hs⟩

theorem Linked.hangs (L : Linked ck c tokens tg t h nt nodes pos) (T : NeatParse t) {d : Dep} {v : Nat} {rv rx : Ref}
    (hv : At t nodes pos v rv) (hd : d ∉ functional) (H : AttachedBy nt nodes d rv rx) :
    ∃ x, At t nodes pos x rx ∧ Hangs t d v x := by
  obtain ⟨node, hn, hp, hg⟩ := H
  obtain ⟨i, i1, i2⟩ := L.down T (L.parMem hp) hv.pos hd
  obtain ⟨x, x1, x2⟩ := L.member T i1 hg
  exact ⟨x, x1, i, i2, x2⟩

/-- A list of attached nodes is empty when nothing is attached. -/
theorem Linked.lacksAttached (L : Linked ck c tokens tg t h nt nodes pos) (T : NeatParse t) {d : Dep} {v : Nat} {rv : Ref}
    (hv : At t nodes pos v rv) (hd : d ∉ functional) (H : ∀ x, ¬ AttachedBy nt nodes d rv x) : Lacks t v d := by
  intro x hx
  obtain ⟨-, w⟩ := L.words T hx hd
  obtain ⟨r, -, -, -, -, k1, k2, -⟩ := L.word w
  exact H r ⟨r, k2, L.parent w hv.pos k1 hx, Or.inl rfl⟩

theorem Linked.lacksObj (L : Linked ck c tokens tg t h nt nodes pos) (T : NeatParse t) {v : Nat} {rv : Ref}
    (hv : At t nodes pos v rv) (H : ∀ x, ¬ ObjOf h nt nodes rv x) : Lacks t v .OBJ := by
  intro x hx
  obtain ⟨-, w⟩ := L.words T hx (by decide)
  obtain ⟨r, -, -, -, -, k1, k2, -⟩ := L.word w
  have hp := L.parent w hv.pos k1 hx
  have : ∃ y, Meant (RelReferent h nt rv r) (ReflexiveObj h nt rv r) r y := by
    by_cases h1 : ∃ y, RelReferent h nt rv r y
    · exact h1.imp fun _ => Or.inl
    · have h1' := not_exists.mp h1
      by_cases h2 : ∃ y, ReflexiveObj h nt rv r y
      · exact h2.imp fun _ k => Or.inr (Or.inl ⟨h1', k⟩)
      · exact ⟨r, Or.inr (Or.inr ⟨h1', not_exists.mp h2, rfl⟩)⟩
  obtain ⟨y, hy⟩ := this
  exact H y (Or.inl ⟨rv, r, y, k2, hp, hy, Or.inl rfl, Or.inl rfl⟩)

theorem Linked.lacksSubj (L : Linked ck c tokens tg t h nt nodes pos) (T : NeatParse t) {v : Nat} {rv : Ref}
    (hv : At t nodes pos v rv) (H : ∀ x, ¬ SubjOf h nt nodes rv x) : Lacks t v .SUBJ := by
  intro x hx
  obtain ⟨-, w⟩ := L.words T hx (by decide)
  obtain ⟨r, -, -, -, -, k1, k2, -⟩ := L.word w
  have hp := L.parent w hv.pos k1 hx
  have : ∃ y, Meant (RelReferent h nt rv r) (ReflexiveSubj h nt rv r) r y := by
    by_cases h1 : ∃ y, RelReferent h nt rv r y
    · exact h1.imp fun _ => Or.inl
    · have h1' := not_exists.mp h1
      by_cases h2 : ∃ y, ReflexiveSubj h nt rv r y
      · exact h2.imp fun _ k => Or.inr (Or.inl ⟨h1', k⟩)
      · exact ⟨r, Or.inr (Or.inr ⟨h1', not_exists.mp h2, rfl⟩)⟩
  obtain ⟨y, hy⟩ := this
  exact H y (Or.inl ⟨rv, r, y, k2, hp, hy, Or.inl rfl, Or.inl rfl⟩)

/-! ### Arguments -/

theorem Linked.named (L : Linked ck c tokens tg t h nt nodes pos) (A : ArgsFound h nt nodes h') (T : NeatParse t) {k : Nat} {r : Ref}
    {a : Argument} (hk : At t nodes pos k r) (hn : Nominal h' r) (ha : IsNoun h' r a) : Named ck c tokens tg t k a := by
  obtain ⟨e1, e2, -⟩ := ArgsFound_keeps A r
  obtain ⟨h1, h2, h3⟩ := ha
  have := L.writtenAs T hk
  rw [Nominal, e1] at hn
  rw [e1] at h2
  rw [e2] at h1
  rw [← h1] at this
  exact ⟨_, this, hn, h2, h3⟩

theorem Linked.activeOf (L : Linked ck c tokens tg t h nt nodes pos) (A : ArgsFound h nt nodes h') {k : Nat} {r : Ref}
    (hk : At t nodes pos k r) : (∃ w, ActiveVerb (h'.node r) w) ↔ (h.node r).tag = .ADJ ∧ ∃ w, w ≠ [] ∧ PastForm c tokens t k w := by
  obtain ⟨-, -, -, -, -, e6⟩ := ArgsFound_keeps A r
  obtain ⟨r', s, tag, l, x, k1, k2, k3, k4, k5, k6, k7, k8, k9, k10, k11⟩ := L.word hk.word
  cases L.fn k1 hk.pos
  unfold ActiveVerb
  rw [e6]
  by_cases ht : (h.node r).tag = .ADJ
  · obtain ⟨l', x', m1, m2, m3⟩ := k11 ht
    rw [m3]
    constructor
    · rintro ⟨w, h1, h2⟩
      split at h1
      · rename_i hx
        subst hx
        exact ⟨ht, w, h2, hk.word, s, l', _, k3, m1, k7, (Option.some.inj h1).symm⟩
      · cases h1
    · rintro ⟨-, w, hw, -, s', l₂, ps, ⟨tok, q1, q2⟩, q3, q4, q5⟩
      obtain ⟨tok', p1, p2⟩ := k3
      rw [p1] at q1; cases q1
      rw [p2] at q2; cases q2
      rw [m1] at q3
      obtain ⟨rfl, rfl⟩ := Prod.mk.inj (Except.ok.inj q3)
      rw [PartWords_unique k7 q4]
      exact ⟨w, by rw [if_pos rfl, q5], hw⟩
  · rw [L.inactive r fun _ => ht]
    constructor
    · rintro ⟨w, h1, -⟩; cases h1
    · rintro ⟨h1, -⟩; exact absurd h1 ht

theorem Linked.participleCode (L : Linked ck c tokens tg t h nt nodes pos) (A : ArgsFound h nt nodes h') {k : Nat} {r : Ref}
    {code : Str} (hk : At t nodes pos k r) (hc : AdjCode (h'.node r) code) : ParticipleCode c tokens t k (h.node r).tag code := by
  cases hc with
  | pp hw =>
    obtain ⟨h1, h2⟩ := (L.activeOf A hk).mp ⟨_, hw⟩
    exact Or.inl ⟨rfl, h1, h2⟩
  | adj hw => exact Or.inr ⟨rfl, fun k => by obtain ⟨w, hw'⟩ := (L.activeOf A hk).mpr k; exact hw w hw'⟩

theorem Linked.givenAdj (L : Linked ck c tokens tg t h nt nodes pos) (A : ArgsFound h nt nodes h') (T : NeatParse t) {k : Nat} {r : Ref}
    {b : Argument} (hk : At t nodes pos k r) (hb : IsAdj h' r b) : GivenAdj ck c tokens tg t k b := by
  obtain ⟨e1, e2, -⟩ := ArgsFound_keeps A r
  obtain ⟨h1, h2, h3⟩ := hb
  have := L.writtenAs T hk
  rw [e2] at h1
  rw [← h1] at this
  exact ⟨_, this, L.participleCode A hk h2, h3⟩

theorem Linked.givenProp (L : Linked ck c tokens tg t h nt nodes pos) (A : ArgsFound h nt nodes h') (T : NeatParse t) {k : Nat} {r : Ref}
    {b : Argument} (hk : At t nodes pos k r) (hb : IsProp h' r b) : GivenProp ck c tokens tg t k b := by
  obtain ⟨e1, e2, -⟩ := ArgsFound_keeps A r
  obtain ⟨h1, h2, h3⟩ := hb
  have := L.writtenAs T hk
  rw [e2] at h1
  rw [← h1] at this
  refine ⟨_, this, ?_, h3⟩
  rcases h2 with ⟨q1, q2⟩ | ⟨q1, q2⟩
  · rw [e1] at q1
    exact Or.inl ⟨q1, L.participleCode A hk q2⟩
  · rw [e1] at q1 q2
    exact Or.inr ⟨q1, q2⟩

/-- The word said by an adjective. -/
theorem Linked.activeWord (L : Linked ck c tokens tg t h nt nodes pos) (A : ArgsFound h nt nodes h') {k : Nat} {r : Ref} {w : Str}
    (hk : At t nodes pos k r) (ha : ActiveVerb (h'.node r) w) : ActiveOf c tokens t k w := by
  obtain ⟨-, -, -, -, -, e6⟩ := ArgsFound_keeps A r
  obtain ⟨r', s, tag, l, x, k1, k2, k3, k4, k5, k6, k7, k8, k9, k10, k11⟩ := L.word hk.word
  cases L.fn k1 hk.pos
  obtain ⟨h1, h2⟩ := ha
  rw [e6] at h1
  by_cases ht : (h.node r).tag = .ADJ
  · obtain ⟨l', x', m1, m2, m3⟩ := k11 ht
    rw [m3] at h1
    split at h1
    · rename_i hx
      subst hx
      exact ⟨h2, hk.word, s, l', _, k3, m1, k7, (Option.some.inj h1).symm⟩
    · cases h1
  · rw [L.inactive r fun _ => ht] at h1; cases h1

theorem Linked.participleOf (L : Linked ck c tokens tg t h nt nodes pos) (A : ArgsFound h nt nodes h') {k : Nat} {r : Ref}
    (hk : At t nodes pos k r) : ParticipleOf c tokens tg t k (Spec.pastParticiple c.pp h' r) := by
  obtain ⟨-, -, e3, e4, -⟩ := ArgsFound_keeps A r
  obtain ⟨r', s, tag, l, x, k1, k2, k3, k4, k5, k6, k7, k8, k9, k10, k11⟩ := L.word hk.word
  cases L.fn k1 hk.pos
  refine ⟨l, c.pp l, _, ⟨s, tag, x, k3, k4, k5⟩, c.pp_eq l, k7, ?_⟩
  rw [Spec.pastParticiple, e3, e4, k6, join_eq_intercalate]

theorem Linked.predicate (L : Linked ck c tokens tg t h nt nodes pos) (A : ArgsFound h nt nodes h') (T : NeatParse t) {k : Nat} {r : Ref}
    (hk : At t nodes pos k r) (ht : (h'.node r).tag = .VERB) (hp : Spec.Plain (h'.node r)) :
    Predicate c tokens tg t k (h'.node r).canon := by
  obtain ⟨k', h1, h2, h3⟩ := L.verbOf A T.clean hk.mem ht
  cases L.inj h1 hk.pos
  obtain ⟨p1, p2, p3⟩ := hp
  refine ⟨hk.word, h3, L.lacksAttached T hk (by decide) fun x hx => ?_, L.lacksAttached T hk (by decide) fun x hx => ?_,
    L.lacksAttached T hk (by decide) fun x hx => ?_⟩
  · rw [← A.props, p1] at hx; cases hx
  · rw [← A.iprops, p2] at hx; cases hx
  · rw [← A.exist, p3] at hx; cases hx

theorem Linked.clauseHead (L : Linked ck c tokens tg t h nt nodes pos) (A : ArgsFound h nt nodes h') (T : NeatParse t) {k : Nat}
    {r : Ref} (hk : At t nodes pos k r) (hh : Heads h' r) : ClauseHead c tokens tg t k (h'.node r).canon := by
  refine ⟨L.predicate A T hk hh.1 hh.2.2, ?_⟩
  obtain ⟨-, -, -, -, e5, -⟩ := ArgsFound_keeps A r
  obtain ⟨r', s, tag, l, x, k1, k2, k3, k4, k5, k6, k7, k8, -⟩ := L.word hk.word
  cases L.fn k1 hk.pos
  rw [← k8, ← e5, hh.2.1]
  decide

theorem Linked.hasClause (L : Linked ck c tokens tg t h nt nodes pos) (A : ArgsFound h nt nodes h') (T : NeatParse t) {rs rv ro : Ref}
    (H : Clause h' nodes rs rv ro) : ∃ s v o, At t nodes pos s rs ∧ At t nodes pos v rv ∧ At t nodes pos o ro ∧
      HasClause ck c tokens tg t s v o (h'.node rv).canon (h'.node ro).canon := by
  obtain ⟨h1, h2, h3, h4, h5, h6⟩ := H
  obtain ⟨v, hv⟩ := L.at_mem T h1
  rw [A.subjs] at h3
  rw [A.objs] at h5
  obtain ⟨s, s1, s2⟩ := L.acts T hv h3
  obtain ⟨o, o1, o2⟩ := L.undergoes T hv h5
  obtain ⟨o', q1, q2, q3⟩ := L.verbOf A T.clean o1.mem h6
  cases L.inj q1 o1.pos
  exact ⟨s, v, o, s1, hv, o1, L.clauseHead A T hv h2, s2, o2, q2, q3⟩

theorem Linked.actsIn (L : Linked ck c tokens tg t h nt nodes pos) (A : ArgsFound h nt nodes h') (T : NeatParse t) {s o : Nat}
    {rs ro rs' : Ref} (hs : At t nodes pos s rs) (ho : At t nodes pos o ro) (H : ClauseSubj h' rs ro rs') (hn : Nominal h' rs) :
    Nominal h' rs' ∧ ∃ s', At t nodes pos s' rs' ∧ ActsIn ck c tokens tg t s o s' := by
  rcases H with ⟨h1, rfl⟩ | ⟨-, h1, h2⟩
  · exact ⟨hn, s, hs, Or.inr ⟨rfl, L.lacksSubj T ho fun x hx => by rw [← A.subjs, h1] at hx; cases hx⟩⟩
  · rw [A.subjs] at h1
    obtain ⟨s', h3, h4⟩ := L.acts T ho h1
    exact ⟨h2, s', h3, Or.inl h4⟩

theorem Linked.linking (L : Linked ck c tokens tg t h nt nodes pos) (T : NeatParse t) {rn rv rp : Ref}
    (H : CopulaOf h nt nodes rn rv rp) : ∃ n v p, At t nodes pos n rn ∧ At t nodes pos v rv ∧ At t nodes pos p rp ∧
      Linking ck c tokens tg t n v p := by
  obtain ⟨node, subj, ref, h1, h2, h3, h4, h5, h6, h7⟩ := H
  obtain ⟨q, hq⟩ := L.at_mem T h1
  obtain ⟨v, v1, v2⟩ := L.up T h2 hq.pos (by decide)
  obtain ⟨s, s1, s2⟩ := L.firstChild T h3 v1.pos (by decide)
  obtain ⟨p, p1, p2⟩ := L.member T hq h6
  rcases h4 with h4 | ⟨-, h4⟩ | ⟨-, -, rfl⟩
  · obtain ⟨m, m1, m2⟩ := L.relativePron T s1 v1 s2 h4
    obtain ⟨n, n1, n2⟩ := L.member T m1 h5
    exact ⟨n, v, p, n1, v1, p1, ⟨q, v2, p2⟩, L.notMarked p1.pos h7, m, n2, Or.inr ⟨s, m2⟩⟩
  · cases h4
  · obtain ⟨n, n1, n2⟩ := L.member T s1 h5
    exact ⟨n, v, p, n1, v1, p1, ⟨q, v2, p2⟩, L.notMarked p1.pos h7, s, n2, Or.inl s2⟩

theorem Linked.describes (L : Linked ck c tokens tg t h nt nodes pos) (T : NeatParse t) {n : Nat} {rn rp : Ref} (hn : At t nodes pos n rn)
    (H : AdjOf h nt nodes rn rp) : ∃ p, At t nodes pos p rp ∧ Describes c tokens tg t n p := by
  rcases H with ⟨node, h1, h2, h3, h4, h5⟩ | ⟨rq, h1, h2, ⟨rm, h3⟩, h4, h5, h6⟩
  · obtain ⟨q, q1, q2⟩ := L.down T (L.parMem h2) hn.pos (by decide)
    obtain ⟨p, p1, p2⟩ := L.member T q1 h5
    have := L.taken q1
    rw [h4] at this
    exact ⟨p, p1, q, p2, this, Or.inl ⟨q2, L.lacks q1.pos (by decide) h3⟩⟩
  · obtain ⟨q, q1, q2⟩ := L.up T h2 hn.pos (by decide)
    obtain ⟨p, p1, p2⟩ := L.member T q1 h6
    obtain ⟨m, -, m2⟩ := L.child hn.pos h3
    have := L.taken q1
    rw [h4] at this
    exact ⟨p, p1, q, p2, this, Or.inr ⟨q2, m, m2⟩⟩

theorem Linked.agents (L : Linked ck c tokens tg t h nt nodes pos) (T : NeatParse t) {p : Nat} {rp rx : Ref} (hp : At t nodes pos p rp)
    (H : AgentOf h nt nodes rp rx) : ∃ x, At t nodes pos x rx ∧ Agent c tokens t p x := by
  obtain ⟨node, rm, h1, h2, h3, h4, -, h5⟩ := H
  obtain ⟨y, y1, y2⟩ := L.down T (L.parMem h2) hp.pos (by decide)
  obtain ⟨x, x1, x2⟩ := L.member T y1 h5
  obtain ⟨m, m1, m2⟩ := L.child y1.pos (L.viaMem.mp (List.mem_of_mem_head? h3))
  have hf : ∀ z, (.FLAT, z) ∉ t.children m := by
    intro z hz
    rcases T m (Or.inl ⟨_, _, hz⟩) with w | ⟨e, -⟩
    · exact w.down z hz
    · rw [e] at hz; cases hz
  obtain ⟨r, tok, q1, q2, q3⟩ := L.marker y1.pos m2 hf
  cases L.fn q1 m1
  exact ⟨x, x1, y, m, tok, y2, x2, m2, q2, by rw [← q3, h4]⟩

end Model
