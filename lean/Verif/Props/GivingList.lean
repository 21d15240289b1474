import Verif.Lemmas.GivingList
import Verif.Props.Giving
import Verif.Props.SimpleList

/-! C139: the list of tuples of a sentence with a recipient. -/

namespace Props
open Py Model Spec

variable {ck : Bool} {c : Logic} {tokens : List Str} {tg : List Tag} {t : Tree Dep Nat} {ts : List STuple} {v s r o : Nat} {w q : Str}
  {A : Nat → Argument}

/-- **C139.** "Foxes bake hens and ducks cakes": the statements, object by object and then recipient by recipient, for each by
subject, then the passive forms, object by object; each once for every arc, in the order of the arcs. -/
theorem C139_list (H : Reports ck c tokens tg t ts) (T : NeatParse t) (F : Giving t v s r o)
    (hv : tg[v]? = some .VERB) (hto : ¬ InfTo c.lower tokens (t.children v) v) (hw : SaidBy c tokens tg t v w)
    (hq : ParticipleOf c tokens tg t v q) (hs : Nouns t tg s) (hr : Nouns t tg r) (ho : Nouns t tg o)
    (hl : ∀ l, LemmaOf c tokens tg o l → l ∉ reflexives)
    (hA : ∀ x, Member t s x ∨ Member t r x ∨ Member t o x → Noun c tokens tg x (A x)) :
    ts = ((together t o).flatMap fun o' => (together t s).map fun s' =>
        ⟨[A s', ⟨w, c!"T", affirmed [positive t s', positive t v, positive t o']⟩, A o']⟩) ++
      ((together t r).flatMap fun r' => (together t s).map fun s' =>
        ⟨[A s', ⟨w, c!"R", affirmed [positive t s', positive t v, positive t r']⟩, A r']⟩) ++
      if w ∈ [c!"have", c!"get"] then [] else (together t o).map fun o' =>
        ⟨[A o', ⟨c!"be", c!"C", affirmed [(together t s).any (positive t), positive t v, positive t o']⟩, ⟨q, c!"L", true⟩]⟩ := by
  have hov : o ≠ v := by
    rintro rfl
    obtain ⟨tag, h1, h2⟩ := ho o (.inl rfl)
    rw [hv] at h2
    cases h2
    exact absurd h1 (by decide)
  have fixed : ∀ {i}, ¬ Exactly.Correctable tg t i := F.fixed
  have hc : ∀ p x, (.CPL, x) ∉ t.children p := fun p x => F.none (by decide)
  have hself : ¬ Exactly.Self ck c tokens tg t o := not_self fixed hc (ho o (.inl rfl)) hl
  have acts : ∀ {v' x}, Exactly.Acts ck c tokens tg t v' x ↔ v' = v ∧ Member t s x := F.acts hov
  have undergoes : ∀ {v' x}, Exactly.Undergoes ck c tokens tg t v' x ↔ v' = v ∧ Member t o x := F.undergoes hself
  have noProp : ∀ p x, (.PROP, x) ∉ t.children p := fun p x => F.none (by decide)
  have clauseHead : Exactly.ClauseHead ck c tokens tg t v w :=
    ⟨⟨(said_written fixed hv).mpr hw, fun x => noProp _ x, fun x => F.none (by decide),
      fun x => F.none (by decide)⟩, hto⟩
  have named : ∀ {r x}, Nouns t tg r → Member t r x → ∀ {a}, Exactly.Named ck c tokens tg t x a ↔ Noun c tokens tg x a :=
    fun h1 h2 => noun_named fixed hc (h1 _ h2)
  obtain ⟨h, h', nt, nodes, pos, L, G, B, N, e⟩ := H.lists
  rw [order_tuples] at e
  obtain ⟨rv, rs, Rv, Rs⟩ := L.ends T F.subj (by decide)
  obtain ⟨_, ro, -, Ro⟩ := L.ends T F.obj (by decide)
  obtain ⟨_, rr, -, Rr⟩ := L.ends T F.recipient (by decide)
  obtain ⟨hh, hw'⟩ := (L.head_iff G T Rv).mpr clauseHead
  have es := L.givers_list T B N F hov Rv
  have eo := L.given_list T B N F hself Rv
  have er := L.receivers_list T B N F Rv
  have node : ∀ {i x}, Nouns t tg i → (i = s ∨ i = r ∨ i = o) → x ∈ together t i → ∃ rx, pos.get? x = some rx ∧ Nominal h' rx ∧
      Order.noun h' rx = A x ∧ (h'.node rx).isAff = positive t x := by
    intro i x h1 h2 hx
    have hm := mem_together.mp hx
    have Ri : ∃ ri, At t nodes pos i ri := by rcases h2 with rfl | rfl | rfl; exacts [⟨_, Rs⟩, ⟨_, Rr⟩, ⟨_, Ro⟩]
    obtain ⟨ri, Ri⟩ := Ri
    obtain ⟨rx, Rx⟩ := L.memberRef T Ri hm
    obtain ⟨n1, n2⟩ := (L.named_iff G T Rx).mp ((named h1 hm).mpr (hA x (by rcases h2 with rfl | rfl | rfl; exacts [.inl hm, .inr (.inl hm), .inr (.inr hm)])))
    exact ⟨rx, L.get Rx.pos, n1, orderly_noun n2, L.aff G Rx.pos Rx.mem⟩
  have allNouns : ∀ {i}, Nouns t tg i → (i = s ∨ i = r ∨ i = o) → ∀ x ∈ (together t i).filterMap pos.get?, Nominal h' x := by
    intro i h1 h2 x hx
    obtain ⟨y, h3, h4⟩ := List.mem_filterMap.mp hx
    obtain ⟨z, h5, h6, -⟩ := node h1 h2 h3
    rw [h4] at h5
    cases h5
    exact h6
  have ns : Order.nouns h' (h'.node rv).subjs = (together t s).filterMap pos.get? := by
    rw [es]
    exact List.filter_eq_self.mpr fun x hx => decide_eq_true (allNouns hs (.inl rfl) x hx)
  have no : Order.nouns h' (h'.node rv).objs = (together t o).filterMap pos.get? := by
    rw [eo]
    exact List.filter_eq_self.mpr fun x hx => decide_eq_true (allNouns ho (.inr (.inr rfl)) x hx)
  have ni : Order.nouns h' (h'.node rv).iobjs = (together t r).filterMap pos.get? := by
    rw [er, if_pos rfl]
    exact List.filter_eq_self.mpr fun x hx => decide_eq_true (allNouns hr (.inr (.inl rfl)) x hx)
  have vo : Order.verbs h' (h'.node rv).objs = [] := by
    rw [eo]
    refine List.filter_eq_nil_iff.mpr fun x hx k => ?_
    have := allNouns ho (.inr (.inr rfl)) x hx
    unfold Nominal at this
    rw [of_decide_eq_true k] at this
    exact absurd this (by decide)
  have he : ∀ r ∈ nodes, r ≠ rv → (h'.node r).subjs = [] ∧ (h'.node r).objs = [] := by
    intro r hr' hne
    obtain ⟨k, Rk⟩ := L.at_mem T hr'
    have hk : k ≠ v := by rintro rfl; exact hne (L.fn Rk.pos Rv.pos)
    exact ⟨(L.noSubj_iff G T Rk).mpr fun x hx => hk (acts.mp hx).1, (L.noObj_iff G T Rk).mpr fun x hx => hk (undergoes.mp hx).1⟩
  have := one_verb_recipients (pp := c.pp) N Rv.mem (orderly_heads.mpr hh) he (fun x hx => by rw [er, if_neg hx]) vo
    (L.noun_silent T B hc noProp (fun p x => F.none (by decide)) c.pp)
  rw [this] at e
  rw [← Except.ok.inj e]
  have hne : (h'.node rv).objs ≠ [] := by
    rw [eo]
    obtain ⟨r, h1, -⟩ := node ho (.inr (.inr rfl)) (List.mem_cons_self : o ∈ together t o)
    exact List.ne_nil_of_mem (List.mem_filterMap.mpr ⟨_, List.mem_cons_self, h1⟩)
  have affv : (h'.node rv).isAff = positive t v := L.aff G Rv.pos Rv.mem
  congr 1
  · unfold Order.ofVerb
    rw [if_neg (fun k => hne k.1), ns, no, ni, hw', List.nil_append]
    congr 1
    · refine flatMap_refs fun x hx => ?_
      obtain ⟨rx, h1, -, h2, h3⟩ := node ho (.inr (.inr rfl)) hx
      refine ⟨rx, h1, map_refs fun y hy => ?_⟩
      obtain ⟨ry, g1, -, g2, g3⟩ := node hs (.inl rfl) hy
      refine ⟨ry, g1, ?_⟩
      simp only [Order.verb, List.map_cons, List.map_nil, h2, h3, g2, g3, affv]
    · refine flatMap_refs fun x hx => ?_
      obtain ⟨rx, h1, -, h2, h3⟩ := node hr (.inr (.inl rfl)) hx
      refine ⟨rx, h1, map_refs fun y hy => ?_⟩
      obtain ⟨ry, g1, -, g2, g3⟩ := node hs (.inl rfl) hy
      refine ⟨ry, g1, ?_⟩
      simp only [Order.verb, List.map_cons, List.map_nil, h2, h3, g2, g3, affv]
  · unfold Order.passives
    rw [hw']
    by_cases k : w ∈ [c!"have", c!"get"]
    · rw [if_pos k, if_pos k]
    · rw [if_neg k, if_neg k, no]
      refine map_refs fun x hx => ?_
      obtain ⟨rx, h1, -, h2, h3⟩ := node ho (.inr (.inr rfl)) hx
      refine ⟨rx, h1, ?_⟩
      have pol : subjPolarity h' rv = [(together t s).any (positive t)] := by
        rw [← L.polarity_iff G T Rv]
        refine .inr ⟨_, rfl, ⟨s, acts.mpr ⟨rfl, .inl rfl⟩⟩, ?_⟩
        simp [List.any_eq_true, mem_together, acts]
      rw [pol, (L.participle_iff G T Rv).mp hq, h2, h3, affv]
      rfl

/-- "Foxes bake him and foxes no formats." -/
example : bakesHim.tuples ck = [⟨[⟨c!"fox", c!"N", true⟩, ⟨c!"bake", c!"T", false⟩, ⟨c!"format", c!"N", true⟩]⟩,
    ⟨[⟨c!"fox", c!"N", true⟩, ⟨c!"bake", c!"R", true⟩, ⟨c!"he", c!"O", true⟩]⟩,
    ⟨[⟨c!"fox", c!"N", true⟩, ⟨c!"bake", c!"R", true⟩, ⟨c!"fox", c!"N", true⟩]⟩,
    ⟨[⟨c!"format", c!"N", true⟩, ⟨c!"be", c!"C", false⟩, ⟨c!"baked", c!"L", true⟩]⟩] := by
  have h := bakesHim_parsed
  have l0 : LemmaOf demoLogic bakesHim.tokens bakesHim.tags 0 c!"fox" :=
    ⟨c!"foxes", .NOUN, some .PLURAL, ⟨c!"Foxes", rfl, by decide +kernel⟩, rfl, by decide +kernel⟩
  have l1 : LemmaOf demoLogic bakesHim.tokens bakesHim.tags 1 c!"bake" :=
    ⟨c!"bake", .VERB, none, ⟨c!"bake", rfl, by decide +kernel⟩, rfl, by decide +kernel⟩
  have l2 : LemmaOf demoLogic bakesHim.tokens bakesHim.tags 2 c!"him" :=
    ⟨c!"him", .PRON, none, ⟨c!"him", rfl, by decide +kernel⟩, rfl, by decide +kernel⟩
  have l4 : LemmaOf demoLogic bakesHim.tokens bakesHim.tags 4 c!"fox" :=
    ⟨c!"foxes", .NOUN, some .PLURAL, ⟨c!"foxes", rfl, by decide +kernel⟩, rfl, by decide +kernel⟩
  have l6 : LemmaOf demoLogic bakesHim.tokens bakesHim.tags 6 c!"format" :=
    ⟨c!"formats", .NOUN, some .PLURAL, ⟨c!"formats", rfl, by decide +kernel⟩, rfl, by decide +kernel⟩
  have := C139_list (v := 1) (s := 0) (r := 2) (o := 6)
    (A := fun x => if x = 2 then ⟨c!"he", c!"O", true⟩ else if x = 6 then ⟨c!"format", c!"N", true⟩ else ⟨c!"fox", c!"N", true⟩)
    (Demo.reports (ck := ck) h) (Demo.neat h (by decide)) (Demo.giving h (by decide)) rfl
    (Demo.noTo h (by decide)) ⟨_, [], rfl, l1, Demo.noParts h (by decide), rfl⟩
    ⟨_, c!"baked", [], l1, by decide +kernel, Demo.noParts h (by decide), rfl⟩ (Demo.nouns h (by decide)) (Demo.nouns h (by decide))
    (Demo.nouns h (by decide)) (fun l hl => by rw [LemmaOf_unique hl l6]; decide) (by
      intro x hx
      rw [Demo.member h, Demo.member h, Demo.member h] at hx
      have : x = 0 ∨ x = 2 ∨ x = 4 ∨ x = 6 := by revert hx; simp [bakesHim]; tauto
      rcases this with rfl | rfl | rfl | rfl
      · exact (common_noun l0 rfl).mpr rfl
      · exact ⟨_, _, l2, rfl, by decide, by constructor, rfl, by decide +kernel⟩
      · exact (common_noun l4 rfl).mpr rfl
      · exact (common_noun l6 rfl).mpr rfl)
  rw [this]
  decide +kernel

end Props
