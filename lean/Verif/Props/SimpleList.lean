import Verif.Lemmas.SimpleList
import Verif.Lemmas.TupleOrder
import Verif.Props.Passive

/-! C135: the list of tuples of a simple sentence. -/

namespace Props
open Py Model Spec

variable {ck : Bool} {c : Logic} {tokens : List Str} {tg : List Tag} {t : Tree Dep Nat} {ts : List STuple} {v s o : Nat} {w q : Str}
  {A : Nat → Argument}

/-- **C135.** "Foxes and hens bake cakes and pies": the statements, object by object and for each by subject, then the passive forms,
object by object; each once for every arc, in the order of the arcs. -/
theorem C135_transitive (H : Reports ck c tokens tg t ts) (T : NeatParse t) (F : Frame t v s (some (.OBJ, o)))
    (hv : tg[v]? = some .VERB) (hto : ¬ InfTo c.lower tokens (t.children v) v) (hw : SaidBy c tokens tg t v w)
    (hq : ParticipleOf c tokens tg t v q) (hs : Nouns t tg s) (ho : Nouns t tg o)
    (hl : ∀ l, LemmaOf c tokens tg o l → l ∉ reflexives)
    (hA : ∀ x, Member t s x ∨ Member t o x → Noun c tokens tg x (A x)) :
    ts = ((together t o).flatMap fun o' => (together t s).map fun s' =>
        ⟨[A s', ⟨w, c!"T", affirmed [positive t s', positive t v, positive t o']⟩, A o']⟩) ++
      if w ∈ [c!"have", c!"get"] then [] else (together t o).map fun o' =>
        ⟨[A o', ⟨c!"be", c!"C", affirmed [(together t s).any (positive t), positive t v, positive t o']⟩, ⟨q, c!"L", true⟩]⟩ := by
  have hov : o ≠ v := by
    rintro rfl
    obtain ⟨tag, h1, h2⟩ := ho o (.inl rfl)
    rw [hv] at h2
    cases h2
    exact absurd h1 (by decide)
  have hr : ∀ y ∈ some (Dep.OBJ, o), y.1 = .OBJ ∧ y.2 ≠ v ∨ y.1 = .PROP := by rintro y ⟨⟩; exact .inl ⟨rfl, hov⟩
  have fixed : ∀ {i}, ¬ Exactly.Correctable tg t i := F.fixed hr (by rintro y ⟨⟩ e; cases e)
  have hc := F.noCpl hr
  have hself : ¬ Exactly.Self ck c tokens tg t o := not_self fixed hc (ho o (.inl rfl)) hl
  have acts : ∀ {v' x}, Exactly.Acts ck c tokens tg t v' x ↔ v' = v ∧ Member t s x := F.acts hr
  have undergoes : ∀ {v' x}, Exactly.Undergoes ck c tokens tg t v' x ↔ v' = v ∧ Member t o x := F.undergoes hov hself
  have noProp : ∀ p x, (.PROP, x) ∉ t.children p := fun p x => F.none (by decide) (by rintro y ⟨⟩; simp)
  have noIobj : ∀ p x, (.IOBJ, x) ∉ t.children p := fun p x => F.none (by decide) (by rintro y ⟨⟩; simp)
  have clauseHead : Exactly.ClauseHead ck c tokens tg t v w :=
    ⟨⟨(said_written fixed hv).mpr hw, fun x => noProp _ x, fun x => F.noIprop hr _ x,
      fun x => F.none (by decide) (by rintro y ⟨⟩; simp)⟩, hto⟩
  have named : ∀ {r x}, Nouns t tg r → Member t r x → ∀ {a}, Exactly.Named ck c tokens tg t x a ↔ Noun c tokens tg x a :=
    fun h1 h2 => noun_named fixed hc (h1 _ h2)
  obtain ⟨h, h', nt, nodes, pos, L, G, B, N, e⟩ := H.lists
  rw [order_tuples] at e
  obtain ⟨rv, rs, Rv, Rs⟩ := L.ends T F.subj (by decide)
  obtain ⟨_, ro, -, Ro⟩ := L.ends T (F.also _ rfl) (by decide)
  obtain ⟨hh, hw'⟩ := (L.head_iff G T Rv).mpr clauseHead
  have es := L.subjs_list T B N F hr Rv
  have eo := L.objs_list T B N F hov hself Rv
  have node : ∀ {r x}, Nouns t tg r → (r = s ∨ r = o) → x ∈ together t r → ∃ rx, pos.get? x = some rx ∧ Nominal h' rx ∧
      Order.noun h' rx = A x ∧ (h'.node rx).isAff = positive t x := by
    intro r x h1 h2 hx
    have hm := mem_together.mp hx
    have Rr : ∃ rr, At t nodes pos r rr := by rcases h2 with rfl | rfl; exacts [⟨_, Rs⟩, ⟨_, Ro⟩]
    obtain ⟨rr, Rr⟩ := Rr
    obtain ⟨rx, Rx⟩ := L.memberRef T Rr hm
    obtain ⟨n1, n2⟩ := (L.named_iff G T Rx).mp ((named h1 hm).mpr (hA x (by rcases h2 with rfl | rfl; exacts [.inl hm, .inr hm])))
    exact ⟨rx, L.get Rx.pos, n1, orderly_noun n2, L.aff G Rx.pos Rx.mem⟩
  have allNouns : ∀ {r}, Nouns t tg r → (r = s ∨ r = o) → ∀ x ∈ (together t r).filterMap pos.get?, Nominal h' x := by
    intro r h1 h2 x hx
    obtain ⟨y, h3, h4⟩ := List.mem_filterMap.mp hx
    obtain ⟨z, h5, h6, -⟩ := node h1 h2 h3
    rw [h4] at h5
    cases h5
    exact h6
  have ns : Order.nouns h' (h'.node rv).subjs = (together t s).filterMap pos.get? := by
    rw [es]
    exact List.filter_eq_self.mpr fun x hx => decide_eq_true (allNouns hs (.inl rfl) x hx)
  have no : Order.nouns h' (h'.node rv).objs = (together t o).filterMap pos.get? := by
    rw [eo]
    exact List.filter_eq_self.mpr fun x hx => decide_eq_true (allNouns ho (.inr rfl) x hx)
  have vo : Order.verbs h' (h'.node rv).objs = [] := by
    rw [eo]
    refine List.filter_eq_nil_iff.mpr fun x hx k => ?_
    have := allNouns ho (.inr rfl) x hx
    unfold Nominal at this
    rw [of_decide_eq_true k] at this
    exact absurd this (by decide)
  have he : ∀ r ∈ nodes, r ≠ rv → (h'.node r).subjs = [] ∧ (h'.node r).objs = [] := by
    intro r hr' hne
    obtain ⟨k, Rk⟩ := L.at_mem T hr'
    have hk : k ≠ v := by rintro rfl; exact hne (L.fn Rk.pos Rv.pos)
    exact ⟨(L.noSubj_iff G T Rk).mpr fun x hx => hk (acts.mp hx).1, (L.noObj_iff G T Rk).mpr fun x hx => hk (undergoes.mp hx).1⟩
  have := one_verb (pp := c.pp) N Rv.mem (orderly_heads.mpr hh) he (L.noRecipients T B noIobj) vo
    (L.noun_silent T B hc noProp (F.noIprop hr) c.pp)
  rw [this] at e
  rw [← Except.ok.inj e]
  have hne : (h'.node rv).objs ≠ [] := by
    rw [eo]
    obtain ⟨r, h1, -⟩ := node ho (.inr rfl) (List.mem_cons_self : o ∈ together t o)
    exact List.ne_nil_of_mem (List.mem_filterMap.mpr ⟨_, List.mem_cons_self, h1⟩)
  have affv : (h'.node rv).isAff = positive t v := L.aff G Rv.pos Rv.mem
  congr 1
  · unfold Order.ofVerb
    rw [if_neg (fun k => hne k.1), ns, no, L.noRecipients T B noIobj, hw']
    simp only [Order.nouns, List.filter_nil, List.flatMap_nil, List.append_nil, List.nil_append]
    refine flatMap_refs fun x hx => ?_
    obtain ⟨rx, h1, -, h2, h3⟩ := node ho (.inr rfl) hx
    refine ⟨rx, h1, map_refs fun y hy => ?_⟩
    obtain ⟨ry, g1, -, g2, g3⟩ := node hs (.inl rfl) hy
    refine ⟨ry, g1, ?_⟩
    simp only [Order.verb, List.map_cons, List.map_nil, h2, h3, g2, g3, affv]
  · unfold Order.passives
    rw [hw']
    by_cases k : w ∈ [c!"have", c!"get"]
    · rw [if_pos k, if_pos k]
    · rw [if_neg k, if_neg k, no]
      refine map_refs fun x hx => ?_
      obtain ⟨rx, h1, -, h2, h3⟩ := node ho (.inr rfl) hx
      refine ⟨rx, h1, ?_⟩
      have pol : subjPolarity h' rv = [(together t s).any (positive t)] := by
        rw [← L.polarity_iff G T Rv]
        refine .inr ⟨_, rfl, ⟨s, acts.mpr ⟨rfl, .inl rfl⟩⟩, ?_⟩
        simp [List.any_eq_true, mem_together, acts]
      rw [pol, (L.participle_iff G T Rv).mp hq, h2, h3, affv]
      rfl

/-- **C135.** "Foxes and hens bake": the statements, subject by subject, each once for every arc, in the order of the arcs. -/
theorem C135_intransitive (H : Reports ck c tokens tg t ts) (T : NeatParse t) (F : Frame t v s none)
    (hv : tg[v]? = some .VERB) (hto : ¬ InfTo c.lower tokens (t.children v) v) (hw : SaidBy c tokens tg t v w)
    (hs : Nouns t tg s) (hA : ∀ x, Member t s x → Noun c tokens tg x (A x)) :
    ts = if w ∈ [c!"have", c!"get", c!"be", c!"do"] then [] else (together t s).map fun s' =>
      ⟨[A s', ⟨w, c!"I", affirmed [positive t s', positive t v]⟩]⟩ := by
  have hr : ∀ y ∈ (none : Option (Dep × Nat)), y.1 = .OBJ ∧ y.2 ≠ v ∨ y.1 = .PROP := by rintro y ⟨⟩
  have fixed : ∀ {i}, ¬ Exactly.Correctable tg t i := F.fixed hr (by rintro y ⟨⟩)
  have hc := F.noCpl hr
  have acts : ∀ {v' x}, Exactly.Acts ck c tokens tg t v' x ↔ v' = v ∧ Member t s x := F.acts hr
  have undergoes : ∀ {v' x}, ¬ Exactly.Undergoes ck c tokens tg t v' x := F.noObject (by rintro y ⟨⟩)
  have noProp : ∀ p x, (.PROP, x) ∉ t.children p := fun p x => F.none (by decide) (by rintro y ⟨⟩)
  have noIobj : ∀ p x, (.IOBJ, x) ∉ t.children p := fun p x => F.none (by decide) (by rintro y ⟨⟩)
  have clauseHead : Exactly.ClauseHead ck c tokens tg t v w :=
    ⟨⟨(said_written fixed hv).mpr hw, fun x => noProp _ x, fun x => F.noIprop hr _ x,
      fun x => F.none (by decide) (by rintro y ⟨⟩)⟩, hto⟩
  obtain ⟨h, h', nt, nodes, pos, L, G, B, N, e⟩ := H.lists
  rw [order_tuples] at e
  obtain ⟨rv, rs, Rv, Rs⟩ := L.ends T F.subj (by decide)
  obtain ⟨hh, hw'⟩ := (L.head_iff G T Rv).mpr clauseHead
  have es := L.subjs_list T B N F hr Rv
  have noObj : ∀ r ∈ nodes, (h'.node r).objs = [] := by
    intro r hr'
    obtain ⟨k, Rk⟩ := L.at_mem T hr'
    exact (L.noObj_iff G T Rk).mpr fun x => undergoes
  have node : ∀ {x}, x ∈ together t s → ∃ rx, pos.get? x = some rx ∧ Nominal h' rx ∧
      Order.noun h' rx = A x ∧ (h'.node rx).isAff = positive t x := by
    intro x hx
    have hm := mem_together.mp hx
    obtain ⟨rx, Rx⟩ := L.memberRef T Rs hm
    obtain ⟨n1, n2⟩ := (L.named_iff G T Rx).mp ((noun_named fixed hc (hs _ hm)).mpr (hA x hm))
    exact ⟨rx, L.get Rx.pos, n1, orderly_noun n2, L.aff G Rx.pos Rx.mem⟩
  have ns : Order.nouns h' (h'.node rv).subjs = (together t s).filterMap pos.get? := by
    rw [es]
    refine List.filter_eq_self.mpr fun x hx => decide_eq_true ?_
    obtain ⟨y, h3, h4⟩ := List.mem_filterMap.mp hx
    obtain ⟨z, h5, h6, -⟩ := node h3
    rw [h4] at h5
    cases h5
    exact h6
  have he : ∀ r ∈ nodes, r ≠ rv → (h'.node r).subjs = [] ∧ (h'.node r).objs = [] := by
    intro r hr' hne
    obtain ⟨k, Rk⟩ := L.at_mem T hr'
    have hk : k ≠ v := by rintro rfl; exact hne (L.fn Rk.pos Rv.pos)
    exact ⟨(L.noSubj_iff G T Rk).mpr fun x hx => hk (acts.mp hx).1, noObj r hr'⟩
  have := one_verb (pp := c.pp) N Rv.mem (orderly_heads.mpr hh) he (L.noRecipients T B noIobj) (by rw [noObj rv Rv.mem]; rfl)
    (L.noun_silent T B hc noProp (F.noIprop hr) c.pp)
  rw [this] at e
  rw [← Except.ok.inj e]
  have affv : (h'.node rv).isAff = positive t v := L.aff G Rv.pos Rv.mem
  have p0 : Order.passives c.pp h' rv = [] := by
    unfold Order.passives
    rw [noObj rv Rv.mem]
    split <;> rfl
  rw [p0, List.append_nil]
  unfold Order.ofVerb
  rw [ns, noObj rv Rv.mem, L.noRecipients T B noIobj, hw']
  simp only [Order.nouns, List.filter_nil, List.flatMap_nil, List.append_nil, true_and]
  by_cases k : w ∈ [c!"have", c!"get", c!"be", c!"do"]
  · rw [if_pos k, if_neg (fun k' => k' k)]
  · rw [if_neg k, if_pos k]
    refine map_refs fun x hx => ?_
    obtain ⟨rx, h1, -, h2, h3⟩ := node hx
    refine ⟨rx, h1, ?_⟩
    simp only [Order.verb, List.map_cons, List.map_nil, h2, h3, affv]

/-- The tuples of a sentence with a property, by the nodes. -/
theorem copula_nodes {h h' : Heap} {nt : Tree Dep Ref} {nodes : List Ref} {pos : Dict Nat Ref} {P : Nat → Argument} {p : Nat}
    (L : Linked ck c tokens tg t h nt nodes pos) (G : ArgsFound h nt nodes h') (B : Order.Lists h nt nodes h') (N : nodes.Nodup)
    (e : extractTuples c.pp h' nodes = .ok ts) (T : NeatParse t) (F : Frame t v s (some (.PROP, p)))
    (hv : tg[v]? = some .VERB) (hw : SaidBy c tokens tg t v w) (hs : Nouns t tg s) (hvp : p ≠ v) (hps : p ≠ s)
    (hA : ∀ x, Member t s x → Noun c tokens tg x (A x))
    (hP : ∀ x, Member t p x → Unmarked t x → Exactly.Given ck c tokens tg t x (P x)) :
    ts = nodes.flatMap fun r => (((together t s).filter fun s' => pos.get? s' = some r)).flatMap fun s' =>
      ((together t p).filter (withoutMarker t)).map fun p' =>
        ⟨[A s', ⟨w, c!"C", affirmed [positive t s', positive t v, positive t p']⟩, P p']⟩ := by
  have hr : ∀ y ∈ some (Dep.PROP, p), y.1 = .OBJ ∧ y.2 ≠ v ∨ y.1 = .PROP := by rintro y ⟨⟩; exact .inr rfl
  have hc := F.noCpl hr
  have fv : ¬ Exactly.Correctable tg t v := F.fixed hr (by rintro y ⟨⟩ -; exact hvp)
  have acts : ∀ {v' x}, Exactly.Acts ck c tokens tg t v' x ↔ v' = v ∧ Member t s x := F.acts hr
  have undergoes : ∀ {v' x}, ¬ Exactly.Undergoes ck c tokens tg t v' x := F.noObject (by rintro y ⟨⟩; rfl)
  have noIobj : ∀ p x, (.IOBJ, x) ∉ t.children p := fun p x => F.none (by decide) (by rintro y ⟨⟩; simp)
  rw [order_tuples] at e
  obtain ⟨rv, rs, Rv, Rs⟩ := L.ends T F.subj (by decide)
  obtain ⟨_, rp, -, Rp⟩ := L.ends T (F.also _ rfl) (by decide)
  have ec := L.copulas_list T B N F Rv Rs
  have apart : ∀ x, Member t s x → p ≠ x := by
    rintro x (rfl | hx | hx) rfl
    · exact hps rfl
    · exact absurd (L.label hx (F.also _ rfl)) (by decide)
    · exact absurd (L.label hx (F.also _ rfl)) (by decide)
  have subj : ∀ x ∈ together t s, ∃ r, At t nodes pos x r ∧ Nominal h' r ∧ Order.noun h' r = A x := by
    intro x hx
    have hm := mem_together.mp hx
    obtain ⟨r, R⟩ := L.memberRef T Rs hm
    obtain ⟨n1, n2⟩ := (L.named_iff G T R).mp ((noun_named (F.fixed hr (by rintro y ⟨⟩ -; exact apart x hm)) hc (hs _ hm)).mpr (hA x hm))
    exact ⟨r, R, n1, orderly_noun n2⟩
  obtain ⟨hvt, hvw⟩ := (L.wrote_iff G T Rv).mp ((said_written fv hv).mpr hw)
  have notHead : Order.heads h' rv = false := by
    by_contra k
    rw [Bool.not_eq_false, orderly_heads] at k
    have := (L.plain_iff G T Rv).mp k.2.2
    exact this.1 p (F.also _ rfl)
  have noObj : ∀ r ∈ nodes, (h'.node r).objs = [] := by
    intro r hr'
    obtain ⟨k, Rk⟩ := L.at_mem T hr'
    exact (L.noObj_iff G T Rk).mpr fun x => undergoes
  have noSubj : ∀ r ∈ nodes, r ≠ rv → (h'.node r).subjs = [] := by
    intro r hr' hne
    obtain ⟨k, Rk⟩ := L.at_mem T hr'
    exact (L.noSubj_iff G T Rk).mpr fun x hx => hne (by cases (acts.mp hx).1; exact L.fn Rk.pos Rv.pos)
  have e1 : ((nodes.filter (Order.heads h')).flatMap (Order.clauses h')) = [] := by
    refine List.flatMap_eq_nil_iff.mpr fun r hr' => ?_
    unfold Order.clauses
    rw [noObj r (List.mem_filter.mp hr').1]
    simp [Order.verbs]
  have e2 : (nodes.filter fun r => Order.said h' nodes r = false) = nodes := by
    refine List.filter_eq_self.mpr fun r _ => ?_
    rw [decide_eq_true_iff]
    unfold Order.said
    rw [List.any_eq_false]
    intro x hx
    simp [noObj x hx, Order.verbs]
  have e3 : ((nodes.filter fun r => (h'.node r).tag = .VERB ∧ Order.plain h' r = true).flatMap (Order.passives c.pp h')) = [] := by
    refine List.flatMap_eq_nil_iff.mpr fun r hr' => ?_
    unfold Order.passives
    rw [noObj r (List.mem_filter.mp hr').1]
    split <;> rfl
  have node : ∀ x ∈ (together t p).filter (withoutMarker t), ∃ rx, pos.get? x = some rx ∧ Order.canBeProp h' rx = true ∧
      Order.prop h' rx = P x ∧ (h'.node rx).isAff = positive t x := by
    intro x hx
    obtain ⟨h1, h2⟩ := List.mem_filter.mp hx
    have hm := mem_together.mp h1
    obtain ⟨rx, Rx⟩ := L.memberRef T Rp hm
    obtain ⟨k1, k2⟩ := (L.given_iff G T Rx).mpr (hP x hm (mem_withoutMarker.mp h2))
    exact ⟨rx, L.get Rx.pos, decide_eq_true k1, orderly_prop k2, L.aff G Rx.pos Rx.mem⟩
  have able : ∀ x ∈ (((together t p).filter (withoutMarker t)).filterMap pos.get?).map fun x => (rv, x),
      Order.canBeProp h' x.2 = true := by
    intro x hx
    obtain ⟨r, h1, rfl⟩ := List.mem_map.mp hx
    obtain ⟨y, h2, h3⟩ := List.mem_filterMap.mp h1
    obtain ⟨z, h4, h5, -⟩ := node y h2
    rw [h3] at h4
    cases h4
    exact h5
  unfold Order.tuples at e
  rw [e1, e2, e3, List.nil_append, List.append_nil] at e
  rw [← Except.ok.inj e]
  refine List.flatMap_congr fun r hr' => ?_
  have ef : ((together t s).filterMap pos.get?).filter (· = r) =
      ((together t s).filter fun s' => pos.get? s' = some r).filterMap pos.get? := by
    refine filterMap_filter_refs fun x hx => ?_
    obtain ⟨rx, Rx, -⟩ := subj x hx
    refine ⟨rx, L.get Rx.pos, ?_⟩
    rw [L.get Rx.pos]
    simp
  by_cases m : ((together t s).filter fun s' => pos.get? s' = some r) = []
  · rw [m, List.flatMap_nil]
    have ec' : (h'.node r).copulasProps = [] := by
      rw [ec, Order.each, ef, m]
      rfl
    by_cases k : r = rv
    · subst k
      rw [notHead, hvt]
      rfl
    · split
      · simp [Order.ofVerb, noSubj r hr' k, noObj r hr', L.noRecipients T B noIobj, Order.nouns]
      · split
        · rw [L.noun_copulas T B hc (F.noIprop hr), ec']
          rfl
        · rfl
  · obtain ⟨x, hx⟩ := List.exists_mem_of_ne_nil _ m
    obtain ⟨hx1, hx2⟩ := List.mem_filter.mp hx
    obtain ⟨rx, Rx, n1, -⟩ := subj x hx1
    have : rx = r := by
      rw [L.get Rx.pos] at hx2
      simpa using hx2
    subst this
    have hsh : ¬ Order.heads h' rx = true := by
      rw [orderly_heads]
      intro k
      unfold Nominal at n1
      rw [k.1] at n1
      exact absurd n1 (by decide)
    rw [if_neg hsh, if_pos (show (h'.node rx).tag ∈ nominal from n1), L.noun_copulas T B hc (F.noIprop hr), ec, Order.each, ef,
      List.filter_flatMap, List.map_flatMap]
    refine flatMap_refs fun y hy => ?_
    obtain ⟨hy1, hy2⟩ := List.mem_filter.mp hy
    obtain ⟨ry, Ry, -, n3⟩ := subj y hy1
    have : ry = rx := by
      rw [L.get Ry.pos] at hy2
      simpa using hy2
    subst this
    refine ⟨ry, L.get Ry.pos, ?_⟩
    rw [List.filter_eq_self.mpr able, List.map_map]
    refine map_refs fun z hz => ?_
    obtain ⟨rz, h1, -, h2, h3⟩ := node z hz
    refine ⟨rz, h1, ?_⟩
    simp only [Function.comp, Order.verb, List.map_cons, List.map_nil, h2, h3, hvw, n3, L.aff G Ry.pos Ry.mem,
      L.aff G Rv.pos Rv.mem]

/-- **C135.** "Foxes are happy and red": every coordinated property without marker, in the order of the arcs. -/
theorem C135_copula (H : Reports ck c tokens tg t ts) (T : NeatParse t) {p : Nat} (F : Frame t v s (some (.PROP, p)))
    (hv : tg[v]? = some .VERB) (hw : SaidBy c tokens tg t v w) (hs : Nouns t tg s) (hvp : p ≠ v) (hps : p ≠ s)
    (hone : together t s = [s]) {a : Argument} (ha : Noun c tokens tg s a)
    (hA : ∀ x, Member t p x → Unmarked t x → Exactly.Given ck c tokens tg t x (A x)) :
    ts = ((together t p).filter (withoutMarker t)).map fun p' =>
      ⟨[a, ⟨w, c!"C", affirmed [positive t s, positive t v, positive t p']⟩, A p']⟩ := by
  obtain ⟨h, h', nt, nodes, pos, L, G, B, N, e⟩ := H.lists
  obtain ⟨rv, rs, Rv, Rs⟩ := L.ends T F.subj (by decide)
  have := copula_nodes (A := fun _ => a) L G B N e T F hv hw hs hvp hps (by
    intro x hx
    have := mem_together.mpr hx
    rw [hone, List.mem_singleton] at this
    subst this
    exact ha) hA
  rw [hone] at this
  rw [this, flatMap_only N Rs.mem]
  · simp [L.get Rs.pos]
  · intro r _ hne
    simp [L.get Rs.pos, Ne.symm hne]

/-! ### Examples -/

/-- "Foxes and formats bake": both, in this order. -/
example : bakersOnly.tuples ck = [⟨[⟨c!"fox", c!"N", true⟩, ⟨c!"bake", c!"I", true⟩]⟩, ⟨[⟨c!"format", c!"N", true⟩, ⟨c!"bake", c!"I", true⟩]⟩] := by
  have h := bakersOnly_parsed
  have l0 : LemmaOf demoLogic bakersOnly.tokens bakersOnly.tags 0 c!"fox" :=
    ⟨c!"foxes", .NOUN, some .PLURAL, ⟨c!"Foxes", rfl, by decide +kernel⟩, rfl, by decide +kernel⟩
  have l2 : LemmaOf demoLogic bakersOnly.tokens bakersOnly.tags 2 c!"format" :=
    ⟨c!"formats", .NOUN, some .PLURAL, ⟨c!"formats", rfl, by decide +kernel⟩, rfl, by decide +kernel⟩
  have l3 : LemmaOf demoLogic bakersOnly.tokens bakersOnly.tags 3 c!"bake" :=
    ⟨c!"bake", .VERB, none, ⟨c!"bake", rfl, by decide +kernel⟩, rfl, by decide +kernel⟩
  have := C135_intransitive (v := 3) (s := 0) (A := fun x => if x = 0 then ⟨c!"fox", c!"N", true⟩ else ⟨c!"format", c!"N", true⟩)
    (Demo.reports (ck := ck) h) (Demo.neat h (by decide)) (Demo.frame h (by decide)) rfl
    (Demo.noTo h (by decide)) ⟨_, [], rfl, l3, Demo.noParts h (by decide), rfl⟩ (Demo.nouns h (by decide)) (by
      intro x hx
      rw [Demo.member h] at hx
      rcases hx with rfl | hx | hx
      · exact (common_noun l0 rfl).mpr rfl
      · have : x = 2 := by revert hx; simp [bakersOnly]
        subst this
        exact (common_noun l2 rfl).mpr rfl
      · revert hx; simp [bakersOnly])
  rw [this]
  decide +kernel

/-- "No foxes and formats bake foxes": nothing is said of foxes as bakers that is not denied; the passive form comes last. -/
example : noFoxes.tuples ck = [⟨[⟨c!"fox", c!"N", true⟩, ⟨c!"bake", c!"T", false⟩, ⟨c!"fox", c!"N", true⟩]⟩,
    ⟨[⟨c!"format", c!"N", true⟩, ⟨c!"bake", c!"T", true⟩, ⟨c!"fox", c!"N", true⟩]⟩,
    ⟨[⟨c!"fox", c!"N", true⟩, ⟨c!"be", c!"C", true⟩, ⟨c!"baked", c!"L", true⟩]⟩] := by
  have h := noFoxes_parsed
  have l1 : LemmaOf demoLogic noFoxes.tokens noFoxes.tags 1 c!"fox" :=
    ⟨c!"foxes", .NOUN, some .PLURAL, ⟨c!"foxes", rfl, by decide +kernel⟩, rfl, by decide +kernel⟩
  have l3 : LemmaOf demoLogic noFoxes.tokens noFoxes.tags 3 c!"format" :=
    ⟨c!"formats", .NOUN, some .PLURAL, ⟨c!"formats", rfl, by decide +kernel⟩, rfl, by decide +kernel⟩
  have l4 : LemmaOf demoLogic noFoxes.tokens noFoxes.tags 4 c!"bake" :=
    ⟨c!"bake", .VERB, none, ⟨c!"bake", rfl, by decide +kernel⟩, rfl, by decide +kernel⟩
  have l5 : LemmaOf demoLogic noFoxes.tokens noFoxes.tags 5 c!"fox" :=
    ⟨c!"foxes", .NOUN, some .PLURAL, ⟨c!"foxes", rfl, by decide +kernel⟩, rfl, by decide +kernel⟩
  have := C135_transitive (v := 4) (s := 1) (o := 5) (A := fun x => if x = 3 then ⟨c!"format", c!"N", true⟩ else ⟨c!"fox", c!"N", true⟩)
    (Demo.reports (ck := ck) h) (Demo.neat h (by decide)) (Demo.frame h (by decide)) rfl
    (Demo.noTo h (by decide)) ⟨_, [], rfl, l4, Demo.noParts h (by decide), rfl⟩
    ⟨_, c!"baked", [], l4, by decide +kernel, Demo.noParts h (by decide), rfl⟩ (Demo.nouns h (by decide)) (Demo.nouns h (by decide))
    (fun l hl => by rw [LemmaOf_unique hl l5]; decide) (by
      intro x hx
      rw [Demo.member h, Demo.member h] at hx
      have : x = 1 ∨ x = 3 ∨ x = 5 := by revert hx; simp [noFoxes]; tauto
      rcases this with rfl | rfl | rfl
      · exact (common_noun l1 rfl).mpr rfl
      · exact (common_noun l3 rfl).mpr rfl
      · exact (common_noun l5 rfl).mpr rfl)
  rw [this]
  decide +kernel

/-- "Foxes are not baked or formats". -/
example : bakedOrFormats.tuples ck = [⟨[⟨c!"fox", c!"N", true⟩, ⟨c!"be", c!"C", false⟩, ⟨c!"baked", c!"L", true⟩]⟩,
    ⟨[⟨c!"fox", c!"N", true⟩, ⟨c!"be", c!"C", false⟩, ⟨c!"format", c!"N", true⟩]⟩] := by
  have h := bakedOrFormats_parsed
  have l0 : LemmaOf demoLogic bakedOrFormats.tokens bakedOrFormats.tags 0 c!"fox" :=
    ⟨c!"foxes", .NOUN, some .PLURAL, ⟨c!"Foxes", rfl, by decide +kernel⟩, rfl, by decide +kernel⟩
  have l1 : LemmaOf demoLogic bakedOrFormats.tokens bakedOrFormats.tags 1 c!"be" :=
    ⟨c!"are", .VERB, none, ⟨c!"are", rfl, by decide +kernel⟩, rfl, by decide +kernel⟩
  have l3 : LemmaOf demoLogic bakedOrFormats.tokens bakedOrFormats.tags 3 c!"baked" :=
    ⟨c!"baked", .ADJ, none, ⟨c!"baked", rfl, by decide +kernel⟩, rfl, by decide +kernel⟩
  have l5 : LemmaOf demoLogic bakedOrFormats.tokens bakedOrFormats.tags 5 c!"format" :=
    ⟨c!"formats", .NOUN, some .PLURAL, ⟨c!"formats", rfl, by decide +kernel⟩, rfl, by decide +kernel⟩
  have n3 : ¬ Exactly.Correctable bakedOrFormats.tags bakedOrFormats.tree 3 := by
    rintro ⟨k, -⟩
    exact absurd (k .OR 5 ((Demo.mem h _ _ _).mpr (by decide))) (by decide)
  have n5 : ¬ Exactly.Correctable bakedOrFormats.tags bakedOrFormats.tree 5 := by
    rintro ⟨-, p, ⟨k, -⟩ | k | k⟩ <;> rw [Demo.mem h] at k <;> simp [bakedOrFormats] at k
  have noCpl : ∀ p x, (.CPL, x) ∉ bakedOrFormats.tree.children p := by
    intro p x k
    rw [Demo.mem h] at k
    simp [bakedOrFormats] at k
  have := C135_copula (v := 1) (s := 0) (p := 3) (a := ⟨c!"fox", c!"N", true⟩)
    (A := fun x => if x = 3 then ⟨c!"baked", c!"L", true⟩ else ⟨c!"format", c!"N", true⟩)
    (Demo.reports (ck := ck) h) (Demo.neat h (by decide)) (Demo.frame h (by decide)) rfl
    ⟨_, [], rfl, l1, Demo.noParts h (by decide), rfl⟩ (Demo.nouns h (by decide)) (by decide) (by decide) (by decide +kernel)
    ((common_noun l0 rfl).mpr rfl) (by
      intro x hx _
      rw [Demo.member h] at hx
      have : x = 3 ∨ x = 5 := by revert hx; simp [bakedOrFormats]
      rcases this with rfl | rfl
      · refine ⟨.ADJ, .inr rfl, ?_, .inl ⟨rfl, .inl ⟨rfl, rfl, c!"bake", by decide, ?_⟩⟩, rfl⟩
        · exact .particles (ps := []) (.same l3 rfl fun k => absurd k n3) (.inr rfl) l3 (Demo.noParts h (by decide))
        · exact ⟨Demo.word h (by decide), c!"baked", c!"bake", [], ⟨c!"baked", rfl, by decide +kernel⟩, by decide +kernel,
            Demo.noParts h (by decide), rfl⟩
      · refine ⟨.NOUN, .inl (by decide), ?_, .inr ⟨by decide, .noun (by decide) (by decide) (by decide) (by decide)⟩, rfl⟩
        exact .noun (.same l5 rfl fun k => absurd k n5) (fun _ _ ⟨⟨_, k, _⟩, _⟩ => noCpl _ _ k) l5)
  rw [this]
  decide +kernel

end Props
