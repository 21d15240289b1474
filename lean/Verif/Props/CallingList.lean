import Verif.Props.Calling
import Verif.Props.CopulaList

/-! C140: the list of tuples of a sentence with a property of the object. -/

namespace Model
open Py Spec

variable {ck : Bool} {c : Logic} {tokens : List Str} {tg : List Tag} {t : Tree Dep Nat} {h h' : Heap} {nt : Tree Dep Ref}
  {nodes : List Ref} {pos : Dict Nat Ref} {v s o p : Nat}
variable (L : Linked ck c tokens tg t h nt nodes pos) (T : NeatParse t)
include L T

theorem Linked.first_list {d : Dep} {i : Nat} {rv ri : Ref} (hd : d ≠ .FLAT ∧ d ≠ .PART) (hv : At t nodes pos v rv) (hi : At t nodes pos i ri)
    (hf : Exactly.First t v d i) : Order.first nt rv d = [ri] := by
  have := (L.first_iff T (d := d) hv.pos hi.pos hd).mpr hf
  unfold FirstChild at this
  unfold Order.first
  cases e : nt.childrenVia rv d with
  | nil => rw [e] at this; cases this
  | cons x l => rw [e] at this; cases this; rfl

/-- What the objects are called. -/
theorem Linked.called_list (B : Order.Lists h nt nodes h') (N : nodes.Nodup) (F : Calling t v s o p) {rv rs ro : Ref}
    (hv : At t nodes pos v rv) (hs : At t nodes pos s rs) (ho : At t nodes pos o ro) (r : Ref) :
    (h'.node r).subjsVerbsIprops = Order.each ((together t o).filterMap pos.get?) r
      (((together t p).filterMap pos.get?).map fun x => (some rs, rv, x)) := by
  obtain ⟨_, rp, -, Rp⟩ := L.ends T F.prop (by decide)
  have hp : nt.parent rp = some (.IPROP, rv) := (L.parent_iff hv Rp).mpr F.prop
  have f1 := L.first_list T (d := .OBJ) (by decide) hv ho ((first_only F.obj fun y k => (F.isObj k).2).mpr rfl)
  have f2 := L.first_list T (d := .SUBJ) (by decide) hv hs ((first_only F.subj fun y k => (F.isSubj k).2).mpr rfl)
  rw [B.called]
  unfold Order.called
  rw [flatMap_only N Rp.mem, hp]
  · dsimp only
    rw [f1, f2, List.flatMap_singleton, L.group_list T ho, L.group_list T Rp]
    rfl
  · intro n hn hne
    split
    · rename_i w e
      exfalso
      obtain ⟨k, hk⟩ := L.at_mem T hn
      obtain ⟨j, -, k2⟩ := L.above hk.pos e
      cases (F.isProp k2).2
      exact hne (L.fn hk.pos Rp.pos)
    · rfl

/-- Without complements and copulas nouns are only called something. -/
theorem Linked.noun_called (B : Order.Lists h nt nodes h') (h1 : ∀ p x, (.CPL, x) ∉ t.children p) (h2 : ∀ p x, (.PROP, x) ∉ t.children p)
    (pp : Str → Str) (r : Ref) : Order.ofNoun pp h' r =
      ((h'.node r).subjsVerbsIprops.filter fun x => Order.canBeProp h' x.2.2).map fun x =>
        ⟨[Order.noun h' r, Order.verb h' (c!"be " ++ Spec.pastParticiple pp h' x.2.1) c!"C" (x.1.toList ++ [x.2.1, r, x.2.2]),
          Order.prop h' x.2.2]⟩ := by
  have c1 : ∀ {r p : Ref}, nt.parent r ≠ some (.CPL, p) := L.noParent T h1
  have c2 : ∀ {r p : Ref}, nt.parent r ≠ some (.PROP, p) := L.noParent T h2
  have e2 : (h'.node r).copulasProps = [] := by
    rw [B.copulas]
    refine List.flatMap_eq_nil_iff.mpr fun n _ => ?_
    split
    · rename_i e; exact absurd e c2
    · rfl
  have e3 : (h'.node r).ppsProps = [] := by
    rw [B.pps, Order.pps, List.filter_eq_nil_iff.mpr]
    · rfl
    · intro n _
      simp [c1]
  have e4 : (h'.node r).adjs = [] := by
    rw [B.adjs]
    refine List.flatMap_eq_nil_iff.mpr fun n _ => ?_
    split
    · rename_i e; exact absurd e c1
    · rfl
  unfold Order.ofNoun
  rw [e2, e3, e4]
  simp only [List.filter_nil, List.map_nil, List.flatMap_nil, List.append_nil]

/-- From the order of the nodes to that of the tokens. -/
theorem Linked.by_tokens {β : Type} {ks : List Nat} {n i : Nat} {ri : Ref} {f : Nat → List β} (R : At t nodes pos i ri)
    (hsub : List.Sublist ks (nodeOrder t n)) (hk : List.Forall₂ (fun k r => (k, r) ∈ pos) ks nodes) :
    (nodes.flatMap fun r => ((together t i).filter fun x => pos.get? x = some r).flatMap f) =
      (nodeOrder t n).flatMap fun k => ((together t i).filter (· = k)).flatMap f := by
  rw [← Props.flatMap_sublist hsub (Props.C136_no_repetition _ _)]
  · clear hsub
    have step : ∀ k r, (k, r) ∈ pos → ((together t i).filter fun x => pos.get? x = some r) = (together t i).filter (· = k) := by
      intro k r hkr
      refine List.filter_congr fun x _ => ?_
      by_cases hx : x = k
      · subst hx
        simp [L.get hkr]
      · have : pos.get? x ≠ some r := fun hg => hx (L.inj (Py.Dict.mem_of_get? hg) hkr)
        simp [hx, this]
    clear L R
    induction hk with
    | nil => rfl
    | cons h1 _ ih => rw [List.flatMap_cons, List.flatMap_cons, ih, step _ _ h1]
  · intro x _ hx
    have : (together t i).filter (· = x) = [] := by
      refine List.filter_eq_nil_iff.mpr ?_
      intro y hy hyx
      simp only [decide_eq_true_eq] at hyx
      subst hyx
      obtain ⟨r, R⟩ := L.memberRef T R (mem_together.mp hy)
      have : ∀ {ks : List Nat} {ns : List Ref}, List.Forall₂ (fun k r => (k, r) ∈ pos) ks ns → r ∈ ns → y ∈ ks := by
        intro ks ns hf
        induction hf with
        | nil => intro hm; cases hm
        | cons h1 _ ih =>
          intro hm
          rcases List.mem_cons.mp hm with rfl | hm
          · rw [L.inj R.pos h1]; simp
          · exact List.mem_cons_of_mem _ (ih hm)
      exact hx (this hk R.mem)
    rw [this, List.flatMap_nil]

end Model

namespace Props
open Py Model Spec

variable {ck : Bool} {c : Logic} {tokens : List Str} {tg : List Tag} {t : Tree Dep Nat} {ts : List STuple} {v s o p : Nat} {q : Str}
  {A P : Nat → Argument}

/-- **C140.** "People call him and her stars": object by object in the order of the nodes, and for each every coordinated property
in the order of the arcs. -/
theorem C140_list (H : Reported ck c tokens tg t ts) (T : NeatParse t) (F : Calling t v s o p)
    (hq : ParticipleOf c tokens tg t v q) (ho : Nouns t tg o) (hop : ¬ Member t o p)
    (hA : ∀ x, Member t o x → Noun c tokens tg x (A x)) (hP : ∀ x, Member t p x → Exactly.Given ck c tokens tg t x (P x)) :
    ts = (nodeOrder t tokens.length).flatMap fun i => ((together t o).filter (· = i)).flatMap fun o' => (together t p).map fun p' =>
      ⟨[A o', ⟨c!"be " ++ q, c!"C", affirmed [positive t s, positive t v, positive t o', positive t p']⟩, P p']⟩ := by
  obtain ⟨h, h', nt, nodes, pos, ks, L, G, B, N, e, hsub, hk⟩ := H.ordered T
  have hc : ∀ p x, (.CPL, x) ∉ t.children p := fun p x => F.none (by decide)
  have noProp : ∀ p x, (.PROP, x) ∉ t.children p := fun p x => F.none (by decide)
  have noIobj : ∀ p x, (.IOBJ, x) ∉ t.children p := fun p x => F.none (by decide)
  rw [order_tuples] at e
  obtain ⟨rv, rs, Rv, Rs⟩ := L.ends T F.subj (by decide)
  obtain ⟨_, ro, -, Ro⟩ := L.ends T F.obj (by decide)
  obtain ⟨_, rp, -, Rp⟩ := L.ends T F.prop (by decide)
  have ec := L.called_list T B N F Rv Rs Ro
  have obj : ∀ x ∈ together t o, ∃ r, At t nodes pos x r ∧ Nominal h' r ∧ Order.noun h' r = A x := by
    intro x hx
    have hm := mem_together.mp hx
    obtain ⟨r, R⟩ := L.memberRef T Ro hm
    obtain ⟨n1, n2⟩ := (L.named_iff G T R).mp ((noun_named (F.fixed (by rintro rfl; exact hop hm)) hc (ho _ hm)).mpr (hA x hm))
    exact ⟨r, R, n1, orderly_noun n2⟩
  have notPlain : Order.plain h' rv = false := by
    by_contra k
    rw [Bool.not_eq_false] at k
    have k : Spec.Plain (h'.node rv) := by simpa [Order.plain, Spec.Plain] using k
    exact ((L.plain_iff G T Rv).mp k).2.1 p F.prop
  have notHead : Order.heads h' rv = false := by simp [Order.heads, notPlain]
  have none : ∀ r ∈ nodes, r ≠ rv → (h'.node r).subjs = [] ∧ (h'.node r).objs = [] := by
    intro r hr' hne
    obtain ⟨k, Rk⟩ := L.at_mem T hr'
    exact ⟨(L.noSubj_iff G T Rk).mpr fun x hx => hne (by cases F.acts hx; exact L.fn Rk.pos Rv.pos),
      (L.noObj_iff G T Rk).mpr fun x hx => hne (by cases F.undergoes hx; exact L.fn Rk.pos Rv.pos)⟩
  have e1 : ((nodes.filter (Order.heads h')).flatMap (Order.clauses h')) = [] := by
    refine List.flatMap_eq_nil_iff.mpr fun r hr' => ?_
    obtain ⟨k1, k2⟩ := List.mem_filter.mp hr'
    unfold Order.clauses
    rw [(none r k1 (by rintro rfl; rw [notHead] at k2; cases k2)).1]
    rfl
  have e2 : (nodes.filter fun r => Order.said h' nodes r = false) = nodes := by
    refine List.filter_eq_self.mpr fun r _ => ?_
    rw [decide_eq_true_iff]
    unfold Order.said
    rw [List.any_eq_false]
    intro x hx
    by_cases k : x = rv
    · subst k
      simp [notHead]
    · simp [(none x hx k).1, Order.nouns]
  have e3 : ((nodes.filter fun r => (h'.node r).tag = .VERB ∧ Order.plain h' r = true).flatMap (Order.passives c.pp h')) = [] := by
    refine List.flatMap_eq_nil_iff.mpr fun r hr' => ?_
    obtain ⟨k1, k2⟩ := List.mem_filter.mp hr'
    unfold Order.passives
    rw [(none r k1 (by rintro rfl; simp [notPlain] at k2)).2]
    split <;> rfl
  have node : ∀ x ∈ together t p, ∃ rx, pos.get? x = some rx ∧ Order.canBeProp h' rx = true ∧
      Order.prop h' rx = P x ∧ (h'.node rx).isAff = positive t x := by
    intro x hx
    have hm := mem_together.mp hx
    obtain ⟨rx, Rx⟩ := L.memberRef T Rp hm
    obtain ⟨k1, k2⟩ := (L.given_iff G T Rx).mpr (hP x hm)
    exact ⟨rx, L.get Rx.pos, decide_eq_true k1, orderly_prop k2, L.aff G Rx.pos Rx.mem⟩
  have able : ∀ x ∈ ((together t p).filterMap pos.get?).map fun x => (some rs, rv, x), Order.canBeProp h' x.2.2 = true := by
    intro x hx
    obtain ⟨r, h1, rfl⟩ := List.mem_map.mp hx
    obtain ⟨y, h2, h3⟩ := List.mem_filterMap.mp h1
    obtain ⟨z, h4, h5, -⟩ := node y h2
    rw [h3] at h4
    cases h4
    exact h5
  rw [← L.by_tokens T Ro hsub hk]
  unfold Order.tuples at e
  rw [e1, e2, e3, List.nil_append, List.append_nil] at e
  rw [← Except.ok.inj e]
  refine List.flatMap_congr fun r hr' => ?_
  have ef : ((together t o).filterMap pos.get?).filter (· = r) =
      ((together t o).filter fun x => pos.get? x = some r).filterMap pos.get? := by
    refine filterMap_filter_refs fun x hx => ?_
    obtain ⟨rx, Rx, -⟩ := obj x hx
    refine ⟨rx, L.get Rx.pos, ?_⟩
    rw [L.get Rx.pos]
    simp
  by_cases m : ((together t o).filter fun x => pos.get? x = some r) = []
  · rw [m, List.flatMap_nil]
    have ec' : (h'.node r).subjsVerbsIprops = [] := by
      rw [ec, Order.each, ef, m]
      rfl
    have en : Order.ofNoun c.pp h' r = [] := by
      rw [L.noun_called T B hc noProp, ec']
      rfl
    by_cases k : r = rv
    · subst k
      rw [notHead, en]
      simp
    · split
      · simp [Order.ofVerb, none r hr' k, L.noRecipients T B noIobj, Order.nouns]
      · split
        · exact en
        · rfl
  · obtain ⟨x, hx⟩ := List.exists_mem_of_ne_nil _ m
    obtain ⟨hx1, hx2⟩ := List.mem_filter.mp hx
    obtain ⟨rx, Rx, n1, -⟩ := obj x hx1
    have : rx = r := by
      rw [L.get Rx.pos] at hx2
      simpa using hx2
    subst this
    have hsh : ¬ Order.heads h' rx = true := by
      rw [orderly_heads]
      intro k
      unfold Nominal at n1
      rw [k.1] at n1
      exact absurd n1 (by decide)
    rw [if_neg hsh, if_pos (show (h'.node rx).tag ∈ nominal from n1), L.noun_called T B hc noProp, ec, Order.each, ef,
      List.filter_flatMap, List.map_flatMap]
    refine flatMap_refs fun y hy => ?_
    obtain ⟨hy1, hy2⟩ := List.mem_filter.mp hy
    obtain ⟨ry, Ry, -, n3⟩ := obj y hy1
    have : ry = rx := by
      rw [L.get Ry.pos] at hy2
      simpa using hy2
    subst this
    refine ⟨ry, L.get Ry.pos, ?_⟩
    rw [List.filter_eq_self.mpr able, List.map_map]
    refine map_refs fun z hz => ?_
    obtain ⟨rz, h1, -, h2, h3⟩ := node z hz
    refine ⟨rz, h1, ?_⟩
    simp only [Function.comp, Order.verb, List.map_cons, List.map_nil, Option.toList_some, List.cons_append, List.nil_append, h2, h3,
      n3, L.aff G Ry.pos Ry.mem, L.aff G Rv.pos Rv.mem, L.aff G Rs.pos Rs.mem, (L.participle_iff G T Rv).mp hq]

example : (bakeInto.tuples ck).map (fun x => x.flatten true) =
    [c!"NCN(fox, NOT be baked, format)", c!"NCN(format, NOT be baked, format)"] := by
  have h := bakeInto_parsed
  have l2 : LemmaOf demoLogic bakeInto.tokens bakeInto.tags 2 c!"bake" :=
    ⟨c!"bake", .VERB, none, ⟨c!"bake", rfl, by decide +kernel⟩, rfl, by decide +kernel⟩
  have l3 : LemmaOf demoLogic bakeInto.tokens bakeInto.tags 3 c!"fox" :=
    ⟨c!"foxes", .NOUN, some .PLURAL, ⟨c!"foxes", rfl, by decide +kernel⟩, rfl, by decide +kernel⟩
  have l5 : LemmaOf demoLogic bakeInto.tokens bakeInto.tags 5 c!"format" :=
    ⟨c!"formats", .NOUN, some .PLURAL, ⟨c!"formats", rfl, by decide +kernel⟩, rfl, by decide +kernel⟩
  have l6 : LemmaOf demoLogic bakeInto.tokens bakeInto.tags 6 c!"format" :=
    ⟨c!"formats", .NOUN, some .PLURAL, ⟨c!"formats", rfl, by decide +kernel⟩, rfl, by decide +kernel⟩
  have F : Calling bakeInto.tree 2 1 3 6 := Demo.calling h (by decide)
  have g6 : Exactly.Given ck demoLogic bakeInto.tokens bakeInto.tags bakeInto.tree 6 ⟨c!"format", c!"N", true⟩ :=
    ⟨.NOUN, .inl (by decide), .noun (.same l6 rfl fun _ => ⟨fun _ => by decide +kernel, fun k => absurd k (by decide)⟩)
      (fun _ _ ⟨⟨_, k, _⟩, _⟩ => F.none (by decide) k) l6, .inr ⟨by decide, by constructor <;> decide⟩, rfl⟩
  have := C140_list (v := 2) (s := 1) (o := 3) (p := 6) (q := c!"baked")
    (A := fun x => if x = 3 then ⟨c!"fox", c!"N", true⟩ else ⟨c!"format", c!"N", true⟩) (P := fun _ => ⟨c!"format", c!"N", true⟩)
    (Demo.reported (ck := ck) h) (Demo.neat h (by decide)) F
    ⟨_, c!"baked", [], l2, by decide +kernel, Demo.noParts h (by decide), rfl⟩ (Demo.nouns h (by decide))
    (by rw [Demo.member h]; decide) (by
      intro x hx
      rw [Demo.member h] at hx
      have : x = 3 ∨ x = 5 := by revert hx; simp [bakeInto]
      rcases this with rfl | rfl
      · exact (common_noun l3 rfl).mpr rfl
      · exact (common_noun l5 rfl).mpr rfl) (by
      intro x hx
      rw [Demo.member h] at hx
      have : x = 6 := by revert hx; simp [bakeInto]
      subst this
      exact g6)
  rw [this]
  decide +kernel

end Props
