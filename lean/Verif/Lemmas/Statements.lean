import Verif.Props.Pipeline
import Verif.Lemmas.SameTree
import Verif.Lemmas.Provenance
import Verif.Spec.Statements
import Verif.Lemmas.Flats

/-! Lemmas for what a parse states: nodes and tokens. -/

namespace Model
open Py Spec

/-- The nodes before argument finding, seen from the tokens. -/
structure Linked (ck : Bool) (c : Logic) (tokens : List Str) (tg : List Tag) (t : Tree Dep Nat) (h : Heap) (nt : Tree Dep Ref)
    (nodes : List Ref) (pos : Dict Nat Ref) : Prop where
  inj : ∀ {k k' r}, (k, r) ∈ pos → (k', r) ∈ pos → k = k'
  fn : ∀ {k r r'}, (k, r) ∈ pos → (k, r') ∈ pos → r = r'
  arc : ∀ {d r r'}, (d, r') ∈ nt.children r ↔ ∃ k k', (k, r) ∈ pos ∧ (k', r') ∈ pos ∧ (d, k') ∈ t.children k
  parMem : ∀ {d r r'}, nt.parent r' = some (d, r) → (d, r') ∈ nt.children r
  parSome : ∀ {d r r'}, (d, r') ∈ nt.children r → ∃ x, nt.parent r' = some x
  viaMem : ∀ {d r r'}, r' ∈ nt.childrenVia r d ↔ (d, r') ∈ nt.children r
  has : ∀ {w d p}, (d, w) ∈ t.children p → d ≠ .FLAT → d ≠ .PART → ∃ r, (w, r) ∈ pos
  label : ∀ {w d d' p p'}, (d, w) ∈ t.children p → (d', w) ∈ t.children p' → d = d'
  mem : ∀ r ∈ nodes, ∃ k, (k, r) ∈ pos
  inTree : ∀ {k r}, (k, r) ∈ pos → (∃ d x, (d, x) ∈ t.children k) ∨ ∃ d p, (d, k) ∈ t.children p
  kept : ∀ {k r p rp d}, (k, r) ∈ pos → r ∈ nodes → (p, rp) ∈ pos → (d, k) ∈ t.children p → d ∉ functional
  inactive : ∀ r, (r ∈ nodes → (h.node r).tag ≠ .ADJ) → (h.node r).activeVerb = none
  marker : ∀ {m p rp}, (p, rp) ∈ pos → (.MARK, m) ∈ t.children p → (∀ x, (.FLAT, x) ∉ t.children m) →
    ∃ r tok, (m, r) ∈ pos ∧ tokens[m]? = some tok ∧ (h.node r).canon = c.lower tok
  word : ∀ {w}, Word t w → ∃ r s tag l x, (w, r) ∈ pos ∧ r ∈ nodes ∧ Spelled c tokens w s ∧ tg[w]? = some tag ∧
    c.lemmatizer.call s tag = .ok (l, x) ∧ (h.node r).lem = l ∧
    PartWords c.lower tokens (t.children w) w (h.node r).particles ∧
    ((h.node r).isInfTo = true ↔ InfTo c.lower tokens (t.children w) w) ∧
    ((h.node r).tag = tag ∨ (nt.children r = [] ∧ (∃ p, nt.parent r = some (.CPL, p) ∨ nt.parent r = some (.PROP, p) ∨
      nt.parent r = some (.IPROP, p)) ∧ ((tag ∈ nominal ∧ l ∈ c.lemmatizer.adjs ∧ (h.node r).tag = .ADJ) ∨
        (tag = .ADJ ∧ l ∈ c.nouns ∧ (h.node r).tag = .NOUN)))) ∧
    (h.node r).canon = Props.canonOf (h.node r).tag l (h.node r).chunk (h.node r).particles ∧
    ((h.node r).tag = .ADJ → ∃ l' x', c.lemmatizer.call s .VERB = .ok (l', x') ∧ (h.node r).suffix = x' ∧
      (h.node r).activeVerb = if x' = some .PAST then some (List.intercalate c!" " (l' :: (h.node r).particles)) else none)
  order : ∀ {w w' r r'}, Word t w → Word t w' → (w, r) ∈ pos → (w', r') ∈ pos → ((h.node r).idx < (h.node r').idx ↔ w < w')
  retag : ∀ {w r tag l}, Word t w → (w, r) ∈ pos → tg[w]? = some tag → LemmaOf c tokens tg w l →
    (Fixable h nt r → (tag ∈ nominal → l ∈ c.lemmatizer.adjs → (h.node r).tag = .ADJ) ∧
      (tag = .ADJ → l ∈ c.nouns → (h.node r).tag = .NOUN)) ∧ (¬ Fixable h nt r → (h.node r).tag = tag)
  partLeaf : ∀ {k r p}, (k, r) ∈ pos → (.PART, k) ∈ t.children p → t.children k ≠ []
  viaList : ∀ {k r d}, (k, r) ∈ pos → d ≠ .FLAT →
    nt.childrenVia r d = (((t.children k).filter fun x => x.1 = d).map Prod.snd).filterMap pos.get?
  unchunked : ck = false → ∀ r, (h.node r).chunk = none
  chunk : ck = true → ∀ r ∈ nodes,
    ((∃ x, Compound h nt nodes x r) → (∀ p, ¬ Compound h nt nodes r p) → ∃ ns, ChunkNouns h nt nodes r ns ∧
      (h.node r).chunk = some (join c!" " (ns.map fun n => (h.node n).lem))) ∧
    ((∀ x, ¬ Compound h nt nodes x r) ∨ (∃ p, Compound h nt nodes r p) → (h.node r).chunk = none)

variable {ck : Bool} {W S : Type} {nets : Networks W} {c : Logic} {vectorize : S → Except PyErr (Nat × W)} {sentences : List S}
  {tags : List (List Tag)} {trees : List (Option (Tree Dep Nat))}

/-- The arcs to a token all have the same label. -/
theorem arc_label (h : Props.Returned nets vectorize sentences tags trees) {i : Nat} {t : Tree Dep Nat}
    (ht : trees[i]? = some (some t)) {w p p' : Nat} {d d' : Dep} (h1 : (d, w) ∈ t.children p)
    (h2 : (d', w) ∈ t.children p') : d = d' := by
  obtain ⟨deps, dead, stack, arcs, tg, -, -, hc, hb⟩ := h.tree ht
  obtain ⟨r, -, hbt⟩ := Props.buildParseTree_some hb
  have inv := buildTree_inv hbt
  rw [inv.mem_children] at h1 h2
  obtain ⟨e, k1, k2⟩ := hc.label _ h1
  obtain ⟨e', k3, k4⟩ := hc.label _ h2
  rw [k1] at k3
  cases k3
  exact k2.trans k4.symm

theorem LemmaOf_unique {tokens : List Str} {tg : List Tag} {w : Nat} {l l' : Str} (h1 : LemmaOf c tokens tg w l) (h2 : LemmaOf c tokens tg w l') : l = l' := by
  obtain ⟨s, tag, x, ⟨tok, a1, a2⟩, a3, a4⟩ := h1
  obtain ⟨s', tag', x', ⟨tok', b1, b2⟩, b3, b4⟩ := h2
  rw [a1] at b1; cases b1
  rw [a2] at b2; cases b2
  rw [a3] at b3; cases b3
  rw [a4] at b4; cases b4
  rfl

theorem linked_lists (h : Props.Returned nets vectorize sentences tags trees) (hc : LogicOk c) {i : Nat} {t : Tree Dep Nat}
    (ht : trees[i]? = some (some t)) {tg : List Tag} (hg : tags[i]? = some tg) {tokens : List Str}
    (hl : tokens.length = tg.length) {st : Heap × Dict Nat Ref} {ts : List STuple}
    (hp : c.process (tokens, tg, some t, ck) = .ok (st, ts)) {width : Nat → Nat} {t' : Tree Dep Nat} {tokens' : List Str}
    {tg' : List Tag} (F : OneWord width t tokens tg t' tokens' tg') :
    ∃ h₄ nt pos, Linked ck c tokens' tg' t' h₄ nt st.2.values pos ∧ ArgsFound h₄ nt st.2.values st.1 ∧
      (∀ x, x ∈ ts ↔ Said c.pp st.1 st.2.values x.args) ∧ Order.Lists h₄ nt st.2.values st.1 ∧ st.2.values.Nodup ∧
      (∀ k r, (k, r) ∈ st.2 → (∀ p, t.parent k ≠ some (.FLAT, p)) → (k, r) ∈ pos) ∧
      ∃ h₀, nodify c.lower tokens tg (some t) = .ok (h₀, st.2, some nt) := by
  have hlab := fun {w p p' : Nat} {d d' : Dep} => arc_label (w := w) (p := p) (p' := p') (d := d) (d' := d') h ht
  obtain ⟨arcs, H, h1, h2⟩ := h.idxTree ht hg
  rw [← hl] at H
  obtain ⟨s, nt, dict, ⟨e, inv, hall, hbl, -, hb, -, hd⟩, hpart, hflat⟩ := nodify_runs (lower := c.lower) H hl.symm h1 h2
  have entry := fun {w : Nat} {r : Ref} (hr : (w, r) ∈ s.dict) => F.entry H hlab inv hflat hr
  have outer := fun {w : Nat} (hw : Word t' w) => F.outer hlab hw.inTree
  obtain ⟨-, hnd, -⟩ := Props.C53_node_indexes h i t ht tg hg c.lower tokens hl _ _ _ e
  obtain ⟨h₁, h₂, h₃, h₄, h₅, ts', g1, s1, s2, sc, s3, s4, ⟨s5, s5'⟩, s6⟩ := Logic.process_some hc e hb hnd ck
  rw [hp] at g1
  obtain ⟨rfl, rfl⟩ := Prod.mk.inj (Except.ok.inj g1)
  have same3 : ∀ r, ∃ ch, h₃.node r = { h₂.node r with chunk := ch } := by
    intro r
    cases ck with
    | false => rw [s3 rfl]; exact ⟨_, rfl⟩
    | true =>
      by_cases k : r ∈ Dict.values dict ∧ (∃ x, Compound h₂ nt (Dict.values dict) x r) ∧
          ∀ p, ¬ Compound h₂ nt (Dict.values dict) r p
      · obtain ⟨ns, -, e⟩ := (sc rfl r).1 k.1 k.2.1 k.2.2
        exact ⟨_, e⟩
      · rw [(sc rfl r).2 (by
          by_contra hk
          push Not at hk
          exact k hk)]
        exact ⟨_, rfl⟩
  obtain ⟨tag, f1, f2⟩ := s2
  choose ch same3 using same3
  have same4 : ∀ r, h₄.node r = { h₃.node r with
      canon := (h₄.node r).canon
      suffix := (h₄.node r).suffix
      activeVerb := (h₄.node r).activeVerb } := by
    intro r
    by_cases hr : r ∈ Dict.values dict
    · exact (Props.C40_frame _ _ ((s4 r).2 hr)).1
    · rw [(s4 r).1 hr]
  have k4 : ∀ r, (h₄.node r).tag = (h₂.node r).tag ∧ (h₄.node r).idx = (h₂.node r).idx ∧ (h₄.node r).lem = (h₂.node r).lem ∧
      (h₄.node r).chunk = (h₃.node r).chunk := by
    intro r
    refine ⟨?_, ?_, ?_, ?_⟩ <;> rw [same4] <;> simp [same3]
  have comp : ∀ x r, Compound h₄ nt (Dict.values dict) x r ↔ Compound h₂ nt (Dict.values dict) x r := by
    intro x r
    constructor
    · rintro ⟨a, b, c, d, e, f⟩
      rw [(k4 _).1] at b c
      rw [(k4 _).2.1, (k4 _).2.1] at f
      exact ⟨a, b, c, d, e, f⟩
    · rintro ⟨a, b, c, d, e, f⟩
      rw [← (k4 _).1] at b c
      rw [← (k4 _).2.1, ← (k4 r).2.1] at f
      exact ⟨a, b, c, d, e, f⟩
  have fresh2 : ∀ r, (h₂.node r).chunk = none := by
    intro r
    have keep := nodify_keeps (fun n => n.chunk = none) rfl (fun _ _ _ => rfl) (fun _ _ h => h) (fun _ h => h) e r
    rw [f1]
    by_cases hm : r ∈ Dict.values dict
    · obtain ⟨sp, l, x, -, -, q3⟩ := (s1 r).2 hm
      rw [q3]
      exact keep
    · rw [(s1 r).1 hm]
      exact keep
  have ninv := buildTree_inv hb
  have harc : ∀ {d r r'}, (d, r') ∈ nt.children r ↔ ∃ k k', (k, r) ∈ s.dict ∧ (k', r') ∈ s.dict ∧ (d, k') ∈ t.children k := by
    intro d r r'
    rw [ninv.mem_children, mem_nodeArcs inv.wf]
  have hkey : ∀ {w}, ((∃ d x, (d, x) ∈ t.children w) ∨ ∃ d p, (d, w) ∈ t.children p) →
      (∀ d p, (d, w) ∈ t.children p → d ≠ .FLAT ∧ d ≠ .PART) → ∃ r, (w, r) ∈ s.dict := by
    intro w hw hup
    have harc : ∃ a ∈ arcs, a.2.1 = w ∨ a.2.2 = w := by
      rcases hw with ⟨d, x, hx⟩ | ⟨d, p, hx⟩
      · exact ⟨_, (H.inv.mem_children _ _ _).mp hx, Or.inl rfl⟩
      · exact ⟨_, (H.inv.mem_children _ _ _).mp hx, Or.inr rfl⟩
    have hlt : w < tokens.length := by
      obtain ⟨a, ha, rfl | rfl⟩ := harc
      · exact (H.lt a ha).1
      · exact (H.lt a ha).2
    have hk : w ∈ s.dict.keys := by
      rcases hall w hlt with hb | hb
      · rcases inv.blOk w hb with e | ⟨p, e⟩ | ⟨p, e⟩ | ⟨_, e⟩
        · exact absurd harc e
        · rw [H.inv.parent] at e
          exact absurd rfl (hup _ _ ((H.inv.mem_children _ _ _).mpr (lastParent_mem e))).1
        · exact absurd rfl (hup _ _ ((H.inv.mem_children _ _ _).mpr e)).2
        · exact e
      · exact hb
    obtain ⟨r, hr'⟩ := Option.isSome_iff_exists.mp ((Dict.get?_isSome_iff _ _).mpr hk)
    exact ⟨r, Dict.mem_of_get? hr'⟩
  have hkept : ∀ {k r p rp d}, (k, r) ∈ s.dict → r ∈ Dict.values dict → (p, rp) ∈ s.dict → (d, k) ∈ t.children p →
      d ∉ functional := by
    intro m r p rp d hr hv hpk hm
    obtain ⟨⟨k, r⟩, k1, rfl⟩ := List.mem_map.mp hv
    have k2 := ((hd _ _).mp k1).2.2
    have k3 : (d, rp, r) ∈ nodeArcs t s.dict := (mem_nodeArcs inv.wf).mpr ⟨p, m, hpk, hr, hm⟩
    cases hq : lastParent (nodeArcs t s.dict) r with
    | none => exact absurd rfl (lastParent_eq_none.mp hq _ k3)
    | some q =>
      obtain ⟨k₁, k₂, h3, h4, h5⟩ := (mem_nodeArcs inv.wf).mp (lastParent_mem (p := q.2) (l := q.1) hq)
      have := inv.key_unique h4 hr
      subst this
      rw [← ninv.parent] at hq
      unfold Tree.parent at hq
      simp only [Tree.hasParentViaSet, hq, decide_eq_false_iff_not] at k2
      rw [hlab h5 hm] at k2
      exact k2
  have hlisted : ∀ {w r}, Word t' w → (w, r) ∈ s.dict → r ∈ Dict.values dict := by
    intro w r hw hr
    refine mem_values ((hd _ r).mpr ⟨⟨_, hr⟩, rfl, ?_⟩)
    rw [Bool.eq_false_iff]
    intro hf
    unfold Tree.hasParentViaSet at hf
    split at hf
    · rename_i q hq
      have hq' : nt.parent r = some q := hq
      rw [ninv.parent] at hq'
      obtain ⟨k, k', h3, h4, h5⟩ := (mem_nodeArcs inv.wf).mp (lastParent_mem (p := q.2) (l := q.1) hq')
      have := inv.key_unique h4 hr
      subst this
      exact (hw.up _ _ (F.lift (outer hw) h5)).2 (of_decide_eq_true hf : q.1 ∈ functionalDeps)
    · cases hf
  have inTree₀ : ∀ {k r}, (k, r) ∈ s.dict → (∃ d x, (d, x) ∈ t.children k) ∨ ∃ d p, (d, k) ∈ t.children p := by
    intro k r hr
    have he := inv.ent k r hr
    rcases he.kind with ⟨a1, a2, -⟩ | ⟨_, _, _, _, up, _, a5, _⟩
    · rcases a2 with a2 | a2
      · obtain ⟨x, hx⟩ := List.exists_mem_of_ne_nil _ a2
        exact Or.inl ⟨x.1, x.2, hx⟩
      · have hlt : k < tokens.length := by
          have := he.tag
          rw [a1] at this
          have := (List.getElem?_eq_some_iff.mp this).1
          omega
        have hn : t.hasNode k = true := by
          cases hn : t.hasNode k with
          | true => rfl
          | false => exact absurd (hbl k hlt hn) a2
        obtain ⟨a, ha, rfl | rfl⟩ := (H.hasNode k).mp hn
        · exact Or.inl ⟨_, _, (H.inv.mem_children _ _ _).mpr ha⟩
        · exact Or.inr ⟨_, _, (H.inv.mem_children _ _ _).mpr ha⟩
    · obtain ⟨z, hz⟩ := upChain_mem a5 k (by simp)
      rw [H.inv.parent] at hz
      exact Or.inl ⟨_, z, (H.inv.mem_children _ _ _).mpr (lastParent_mem hz)⟩
  have own : ∀ k r, (k, r) ∈ dict → (∀ p, t.parent k ≠ some (.FLAT, p)) → (k, r) ∈ s.dict := by
    intro k r hkr hno
    obtain ⟨⟨key, h3⟩, rfl, -⟩ := (hd _ _).mp hkr
    rcases (inv.ent key r h3).kind with ⟨a1, -⟩ | ⟨-, -, -, -, up, -, a3, -⟩
    · rw [a1]; exact h3
    · obtain ⟨q, hq⟩ := upChain_step a3 (by simp)
      exact absurd hq (hno q)
  refine ⟨h₄, nt, s.dict, ?_, s5, s6, s5', hnd, own, _, e⟩
  constructor
  case inj => exact fun h1 h2 => inv.key_unique h1 h2
  case fn =>
    intro k r r' h1 h2
    exact congrArg Prod.snd (List.inj_on_of_nodup_map inv.wf h1 h2 rfl)
  case arc =>
    intro d r r'
    rw [harc]
    constructor
    · rintro ⟨k, k', k1, k2, k3⟩; exact ⟨k, k', k1, k2, F.lift (entry k2).1 k3⟩
    · rintro ⟨k, k', k1, k2, k3⟩; exact ⟨k, k', k1, k2, F.sub k3⟩
  case parMem =>
    intro d r r' hpar
    rw [ninv.parent] at hpar
    rw [ninv.mem_children]
    exact lastParent_mem hpar
  case parSome =>
    intro d r r' hm
    rw [ninv.mem_children] at hm
    rw [ninv.parent]
    cases hq : lastParent (nodeArcs t s.dict) r' with
    | none => exact absurd rfl (lastParent_eq_none.mp hq _ hm)
    | some x => exact ⟨x, rfl⟩
  case viaMem =>
    intro d r r'
    rw [← ninv.children_filter]
    simp only [List.mem_map, List.mem_filter, decide_eq_true_eq, Prod.exists]
    constructor
    · rintro ⟨a, b, ⟨k1, rfl⟩, rfl⟩; exact k1
    · intro k; exact ⟨_, _, ⟨k, rfl⟩, rfl⟩
  case has =>
    intro w d p hm hf hpa
    refine hkey (Or.inr ⟨_, _, F.sub hm⟩) ?_
    intro d' p' hm'
    rw [hlab hm' (F.sub hm)]
    exact ⟨hf, hpa⟩
  case label => exact fun h1 h2 => hlab (F.sub h1) (F.sub h2)
  case mem =>
    intro r hr
    obtain ⟨⟨k, r⟩, k1, rfl⟩ := List.mem_map.mp hr
    exact ((hd _ _).mp k1).1
  case inTree =>
    intro k r hr
    have hin : (∃ d x, (d, x) ∈ t.children k) ∨ ∃ d p, (d, k) ∈ t.children p := inTree₀ hr
    rcases hin with ⟨d, x, hx⟩ | ⟨d, p, hx⟩
    swap
    · exact Or.inr ⟨d, p, F.lift (entry hr).1 hx⟩
    · by_cases hw : width k = 0
      · exact Or.inl ⟨d, x, by rw [F.other k hw (entry hr).1]; exact hx⟩
      · obtain ⟨d, x, hx | hx, hne⟩ := (F.run k hw).attached
        · exact Or.inl ⟨d, x, by rw [F.head k hw]; exact List.mem_filter.mpr ⟨hx, by simpa using hne⟩⟩
        · exact Or.inr ⟨d, x, F.lift (entry hr).1 hx⟩
  case kept => exact fun h1 h2 h3 h4 => hkept h1 h2 h3 (F.sub h4)
  case inactive =>
    intro r hA
    have keep := nodify_keeps (fun n => n.activeVerb = none) rfl (fun _ _ _ => rfl) (fun _ _ h => h) (fun _ h => h) e r
    by_cases hm : r ∈ Dict.values dict
    swap
    · rw [(s4 r).1 hm, same3, f1, (s1 r).1 hm]
      exact keep
    have hA := hA hm
    obtain ⟨sp, l, x, -, -, q3⟩ := (s1 r).2 hm
    obtain ⟨g1, g2⟩ := Props.C40_frame _ _ ((s4 r).2 hm)
    have ht : (h₄.node r).tag = (h₃.node r).tag := by rw [g1]
    rw [(g2 (by rw [← ht]; exact hA)).2, same3, f1, q3]
    exact keep
  case marker =>
    intro m p rp hpk hm hdown
    have hm := F.sub hm
    obtain ⟨r, hr⟩ := hkey (Or.inr ⟨_, _, hm⟩) fun d' p' hm' => by rw [hlab hm' hm]; simp
    have he := inv.ent m r hr
    obtain ⟨a1, a3, -⟩ := (entry hr).2 hdown
    refine ⟨r, _, hr, a3, ?_⟩
    have keep := nodify_keeps (fun n => n.canon = n.standard) rfl (fun _ _ _ => rfl) (fun _ _ h => h) (fun _ h => h) e r
    have hnot : r ∉ Dict.values dict := fun hv => hkept hr hv hpk hm (by simp [functional])
    rw [(s4 r).1 hnot, same3, f1, (s1 r).1 hnot]
    simp only
    rw [keep, he.names]
  case word =>
    intro w hw
    obtain ⟨r, hr⟩ := hkey (hw.inTree.imp (fun ⟨d, x, h⟩ => ⟨d, x, F.sub h⟩) fun ⟨d, p, h⟩ => ⟨d, p, F.sub h⟩) fun d p hm =>
      ⟨(hw.up d p (F.lift (outer hw) hm)).1, fun e => (hw.up d p (F.lift (outer hw) hm)).2 (by rw [e]; simp [functional])⟩
    have he := inv.ent w r hr
    obtain ⟨a1, a3, htag, a4, a5⟩ := (entry hr).2 hw.down
    have hm := hlisted hw hr
    have keep := nodify_keeps (fun n => n.activeVerb = none) rfl (fun _ _ _ => rfl) (fun _ _ h => h) (fun _ h => h) e r
    obtain ⟨sp, l, x, q1, q2, q3⟩ := (s1 r).2 hm
    have hcan := (s4 r).2 hm
    have hframe := (Props.C40_frame _ _ hcan).1
    have hcanon := Props.C40_canon _ _ hcan
    have e3 : h₃.node r = { s.heap.node r with standard := sp, lem := l, suffix := x, tag := tag r, chunk := ch r } := by
      rw [same3, f1, q3]
    have l4 : (h₄.node r).lem = l := by rw [hframe]; simp [e3]
    have p4 : (h₄.node r).particles = (s.heap.node r).particles := by rw [hframe]; simp [e3]
    have i4 : (h₄.node r).isInfTo = (s.heap.node r).isInfTo := by rw [hframe]; simp [e3]
    have t4 : (h₄.node r).tag = tag r := by rw [hframe]; simp [e3]
    refine ⟨r, sp, (s.heap.node r).tag, l, x, hr, hm, ⟨_, a3, by rw [← he.names]; exact q1⟩, htag, q2, l4, by rw [p4]; exact a4,
      by rw [i4]; exact a5, ?_, ?_, ?_⟩
    · rw [t4]
      obtain ⟨f3, f4, f5⟩ := f2 r
      have l1 : (h₁.node r).lem = l := by rw [q3]
      have t1 : (h₁.node r).tag = (s.heap.node r).tag := by rw [q3]
      rw [l1, t1] at f3 f4 f5
      by_cases hfix : Fixable h₁ nt r
      · have hx : nt.children r = [] ∧ ∃ p, nt.parent r = some (.CPL, p) ∨ nt.parent r = some (.PROP, p) ∨
            nt.parent r = some (.IPROP, p) := by
          refine ⟨hfix.1, ?_⟩
          rcases hfix.2 with ⟨p, k, -⟩ | ⟨p, k⟩
          · exact ⟨p, Or.inl k⟩
          · exact ⟨p, Or.inr k⟩
        by_cases hA : (s.heap.node r).tag ∈ nominal ∧ l ∈ c.lemmatizer.adjs
        · exact Or.inr ⟨hx.1, hx.2, Or.inl ⟨hA.1, hA.2, f3 ⟨hm, hfix, hA.1, hA.2⟩⟩⟩
        · by_cases hB : (s.heap.node r).tag = .ADJ ∧ l ∈ c.nouns
          · exact Or.inr ⟨hx.1, hx.2, Or.inr ⟨hB.1, hB.2, f4 ⟨hm, hfix, hB.1, hB.2⟩⟩⟩
          · refine Or.inl (f5 ?_)
            by_cases k1 : (s.heap.node r).tag ∈ nominal
            · exact Or.inr (Or.inr (Or.inr (Or.inl ⟨k1, fun k => hA ⟨k1, k⟩⟩)))
            · by_cases k2 : (s.heap.node r).tag = .ADJ
              · exact Or.inr (Or.inr (Or.inr (Or.inr ⟨k2, fun k => hB ⟨k2, k⟩⟩)))
              · exact Or.inr (Or.inr (Or.inl ⟨k1, k2⟩))
      · exact Or.inl (f5 (Or.inr (Or.inl hfix)))
    · have c4 : (h₄.node r).chunk = ch r := by rw [hframe]; simp [e3]
      rw [hcanon, e3, p4, t4, c4]
    · intro hA
      have : (h₃.node r).tag = .ADJ := by rw [e3]; simp only; rw [← t4]; exact hA
      obtain ⟨l', x', k1, k2, k3⟩ := Props.C40_adjective _ _ this hcan
      refine ⟨l', x', ?_, k2, ?_⟩
      · rw [e3] at k1; exact k1
      · rw [k3, p4, e3]
        simp only [keep]
  case order =>
    intro w w' r r' hw hw' hr hr'
    have hidx : ∀ {w r}, Word t' w → (w, r) ∈ s.dict → (h₄.node r).idx = w + width w := by
      intro w r hw hr
      have a1 := ((entry hr).2 hw.down).1
      rw [(k4 r).2.1, f1]
      by_cases hm : r ∈ Dict.values dict
      · obtain ⟨sp, l, x, -, -, q3⟩ := (s1 r).2 hm
        rw [q3]
        exact a1
      · rw [(s1 r).1 hm]
        exact a1
    rw [hidx hw hr, hidx hw' hr']
    have o := outer hw w'
    have o' := outer hw' w
    constructor
    · intro hlt
      by_contra hc
      rcases Nat.lt_or_eq_of_le (Nat.le_of_not_lt hc) with hc | rfl
      · have := o hc
        omega
      · omega
    · intro hlt
      have := o' hlt
      omega
  case retag =>
    intro w r tag' l hw hr htg hlem
    have he := inv.ent w r hr
    obtain ⟨a1, a3, htag, -, -⟩ := (entry hr).2 hw.down
    have hm := hlisted hw hr
    obtain ⟨sp, l', x, q1, q2, q3⟩ := (s1 r).2 hm
    rw [htg] at htag
    have htag := Option.some.inj htag
    have : l = l' := LemmaOf_unique hlem ⟨sp, tag', x, ⟨_, a3, by rw [← he.names]; exact q1⟩, htg, by rw [htag]; exact q2⟩
    subst this
    have htop : ∀ {d p}, nt.parent r = some (d, p) → (h₄.node p).tag = (h₁.node p).tag := by
      intro d p hpar
      have hne : ¬ Fixable h₁ nt p := by
        intro k
        rw [ninv.parent] at hpar
        have := (ninv.mem_children _ _ _).mpr (lastParent_mem hpar)
        rw [k.1] at this
        cases this
      rw [(k4 p).1, f1]
      exact (f2 p).2.2 (Or.inr (Or.inl hne))
    have hfix : Fixable h₄ nt r ↔ Fixable h₁ nt r := by
      unfold Fixable
      refine and_congr_right fun _ => or_congr_left (exists_congr fun p => and_congr_right fun hpar => ?_)
      rw [htop hpar]
    have l1 : (h₁.node r).lem = l := by rw [q3]
    have t1 : (h₁.node r).tag = tag' := by rw [q3, htag]
    obtain ⟨f3, f4, f5⟩ := f2 r
    rw [l1, t1] at f3 f4 f5
    rw [(k4 r).1, f1, hfix]
    exact ⟨fun hf => ⟨fun k1 k2 => f3 ⟨hm, hf, k1, k2⟩, fun k1 k2 => f4 ⟨hm, hf, k1, k2⟩⟩, fun hf => f5 (Or.inr (Or.inl hf))⟩
  case partLeaf =>
    intro k r p hr hp hnil
    have hp := F.sub hp
    have hw : width k = 0 := by
      by_contra hw
      exact ((F.run k hw).top _ _ hp).2 rfl
    rw [F.other k hw (entry hr).1] at hnil
    rcases (inv.ent k r hr).kind with ⟨-, a2 | a2, -⟩ | ⟨_, _, _, _, up, _, a5, _⟩
    · exact a2 hnil
    · exact a2 (hpart p k hp)
    · obtain ⟨z, hz⟩ := upChain_mem a5 k (by simp)
      rw [H.inv.parent] at hz
      have := (H.inv.mem_children _ _ _).mpr (lastParent_mem hz)
      rw [hnil] at this
      cases this
  case viaList =>
    intro k r d hr hd
    have hch : (t'.children k).filter (fun x => x.1 = d) = (t.children k).filter fun x => x.1 = d := by
      by_cases hw : width k = 0
      · rw [F.other k hw (entry hr).1]
      · rw [F.head k hw, List.filter_filter]
        refine List.filter_congr fun x _ => ?_
        by_cases e : x.1 = d
        · simp [e, hd]
        · simp [e]
    have hone : s.dict.filter (fun p => p.2 = r) = [(k, r)] := by
      have : ∀ (l : List (Nat × Ref)), (l.map Prod.snd).Nodup → (k, r) ∈ l → l.filter (fun p => p.2 = r) = [(k, r)] := by
        intro l
        induction l with
        | nil => intro _ h; cases h
        | cons a l ih =>
          intro hn hm
          rw [List.map_cons, List.nodup_cons] at hn
          rcases List.mem_cons.mp hm with rfl | hm
          · rw [List.filter_cons_of_pos (by simp), List.filter_eq_nil_iff.mpr]
            intro b hb
            simp only [decide_eq_true_eq]
            intro e
            exact hn.1 (List.mem_map.mpr ⟨b, hb, e⟩)
          · rw [List.filter_cons_of_neg, ih hn.2 hm]
            simp only [decide_eq_true_eq]
            intro e
            exact hn.1 (List.mem_map.mpr ⟨_, hm, e.symm⟩)
      exact this _ inv.vals hr
    rw [ninv.childrenVia, nodeArcs_labelled H.inv, hone, hch, H.inv.children_filter]
    simp
  case unchunked =>
    intro e r
    rw [(k4 r).2.2.2, s3 e, fresh2]
  case chunk =>
    intro hck r hr
    rw [(k4 r).2.2.2]
    simp only [comp]
    refine ⟨fun k1 k2 => ?_, fun k => ?_⟩
    · obtain ⟨ns, n1, n2⟩ := (sc hck r).1 hr k1 k2
      refine ⟨ns, ⟨?_, n1.once, ?_, n1.rootLast⟩, ?_⟩
      · have : Compound h₄ nt (Dict.values dict) = Compound h₂ nt (Dict.values dict) := by
          funext x y
          exact propext (comp x y)
        rw [this]
        exact n1.mem
      · exact n1.order.imp fun k => by rw [(k4 _).2.1, (k4 _).2.1]; exact k
      · rw [n2]
        simp only [(k4 _).2.2.1]
    · rw [(sc hck r).2 (Or.inr k), fresh2]


/-! ### Tokens and nodes -/

section
variable {tokens : List Str} {tg : List Tag} {t : Tree Dep Nat} {h h' : Heap} {nt : Tree Dep Ref} {nodes : List Ref}
  {pos : Dict Nat Ref}

theorem Linked.parent (L : Linked ck c tokens tg t h nt nodes pos) {w w' : Nat} {r r' : Ref} {d : Dep} (hw : Word t w')
    (h1 : (w, r) ∈ pos) (h2 : (w', r') ∈ pos) (ha : (d, w') ∈ t.children w) : nt.parent r' = some (d, r) := by
  obtain ⟨⟨d₂, r₂⟩, hx⟩ := L.parSome (L.arc.mpr ⟨w, w', h1, h2, ha⟩)
  obtain ⟨k, k', k1, k2, k3⟩ := L.arc.mp (L.parMem hx)
  have := L.inj k2 h2
  subst this
  have e1 := L.label k3 ha
  have e2 := hw.one _ _ _ _ k3 ha
  subst e1 e2
  rw [hx, L.fn k1 h1]

theorem Linked.child (L : Linked ck c tokens tg t h nt nodes pos) {w : Nat} {r r' : Ref} {d : Dep}
    (h1 : (w, r) ∈ pos) (ha : (d, r') ∈ nt.children r) : ∃ w', (w', r') ∈ pos ∧ (d, w') ∈ t.children w := by
  obtain ⟨k, k', k1, k2, k3⟩ := L.arc.mp ha
  have := L.inj k1 h1
  subst this
  exact ⟨k', k2, k3⟩

theorem Linked.above (L : Linked ck c tokens tg t h nt nodes pos) {w : Nat} {r r' : Ref} {d : Dep}
    (h1 : (w, r) ∈ pos) (ha : nt.parent r = some (d, r')) : ∃ w', (w', r') ∈ pos ∧ (d, w) ∈ t.children w' := by
  obtain ⟨k, k', k1, k2, k3⟩ := L.arc.mp (L.parMem ha)
  have := L.inj k2 h1
  subst this
  exact ⟨k, k1, k3⟩

theorem Linked.aff (L : Linked ck c tokens tg t h nt nodes pos) (A : ArgsFound h nt nodes h') {w : Nat} {r : Ref}
    (h1 : (w, r) ∈ pos) (h2 : r ∈ nodes) : (h'.node r).isAff = positive t w := by
  have : (h'.node r).isAff = false ↔ positive t w = false := by
    rw [A.aff]
    simp only [positive, List.all_eq_false, decide_eq_true_eq, not_not]
    constructor
    · rintro ⟨-, x, hx⟩
      obtain ⟨w', -, k⟩ := L.child h1 hx
      exact ⟨_, k, rfl⟩
    · rintro ⟨⟨d, x⟩, k, rfl⟩
      obtain ⟨r', k'⟩ := L.has k (by simp) (by simp)
      exact ⟨h2, r', L.arc.mpr ⟨w, x, h1, k', k⟩⟩
  cases e : (h'.node r).isAff <;> cases e' : positive t w <;> simp_all

theorem ArgsFound_keeps (A : ArgsFound h nt nodes h') (r : Ref) : (h'.node r).tag = (h.node r).tag ∧
    (h'.node r).canon = (h.node r).canon ∧ (h'.node r).lem = (h.node r).lem ∧
    (h'.node r).particles = (h.node r).particles ∧ (h'.node r).isInfTo = (h.node r).isInfTo ∧
    (h'.node r).activeVerb = (h.node r).activeVerb := by
  obtain ⟨a, b, c, d, e, f, g, i, j, k, l, m, n, o, H⟩ := A.same r
  rw [H]
  simp

/-- Nothing retags the node: it is no complement or property, or it has a child. -/
def Stable (t : Tree Dep Nat) (w : Nat) : Prop :=
  (∃ d p, (d, w) ∈ t.children p ∧ d ≠ .CPL ∧ d ≠ .PROP ∧ d ≠ .IPROP) ∨
    ∃ d x, (d, x) ∈ t.children w ∧ d ≠ .FLAT ∧ d ≠ .PART

theorem Linked.stable (L : Linked ck c tokens tg t h nt nodes pos) {w : Nat} {r : Ref} (hs : Stable t w)
    (h1 : (w, r) ∈ pos) : ¬ (nt.children r = [] ∧ ∃ p, nt.parent r = some (.CPL, p) ∨ nt.parent r = some (.PROP, p) ∨
      nt.parent r = some (.IPROP, p)) := by
  rintro ⟨e, p, k⟩
  rcases hs with ⟨d, q, m, n1, n2, n3⟩ | ⟨d, x, m, n1, n2⟩
  · rcases k with k | k | k <;> (obtain ⟨w', -, k'⟩ := L.above h1 k; have := L.label m k'; tauto)
  · obtain ⟨r', k'⟩ := L.has m n1 n2
    have := L.arc.mpr ⟨w, x, h1, k', m⟩
    rw [e] at this
    cases this

theorem PartWords_unique {lower : Str → Str} {childs : List (Dep × Nat)} {k : Nat} {ps ps' : List Str}
    (h1 : PartWords lower tokens childs k ps) (h2 : PartWords lower tokens childs k ps') : ps = ps' := by
  obtain ⟨is, toks, a1, a2, a3, rfl⟩ := h1
  obtain ⟨is', toks', b1, b2, b3, rfl⟩ := h2
  have : is = is' := List.Perm.eq_of_pairwise (fun a b _ _ h1 h2 => Nat.le_antisymm h1 h2) a1 b1 (a2.trans b2.symm)
  subst this
  congr 1
  clear a1 a2 b1 b2
  induction a3 generalizing toks' with
  | nil => cases b3; rfl
  | cons k _ ih =>
    cases b3 with
    | cons k' h => rw [k] at k'; cases k'; rw [ih _ h]

/-- The node of a word has its lemma. -/
theorem Linked.lem (L : Linked ck c tokens tg t h nt nodes pos) {w : Nat} {r : Ref} (hw : Word t w) (hr : (w, r) ∈ pos) :
    r ∈ nodes ∧ LemmaOf c tokens tg w (h.node r).lem := by
  obtain ⟨r', s, tag, l, x, k1, k2, k3, k4, k5, k6, -⟩ := L.word hw
  have := L.fn k1 hr
  subst this
  exact ⟨k2, s, tag, x, k3, k4, by rw [k6]; exact k5⟩

theorem Linked.fixed (L : Linked ck c tokens tg t h nt nodes pos) {w : Nat} {r p : Ref} {tag : Tag} {l : Str} (hw : Word t w)
    (hr : (w, r) ∈ pos) (hn : nt.children r = []) (hp : nt.parent r = some (.CPL, p)) (hq : (h.node p).tag ∈ nominal)
    (htg : tg[w]? = some tag) (hl : LemmaOf c tokens tg w l) :
    (tag ∈ nominal → l ∈ c.lemmatizer.adjs → (h.node r).tag = .ADJ) ∧ (tag = .ADJ → l ∈ c.nouns → (h.node r).tag = .NOUN) :=
  (L.retag hw hr htg hl).1 ⟨hn, Or.inl ⟨p, hp, hq⟩⟩

/-- A complement taken for a noun has a nominal node. -/
theorem Linked.asNoun (L : Linked ck c tokens tg t h nt nodes pos) {j : Nat} {r rp : Ref} (hw : Word t j) (hr : (j, r) ∈ pos)
    (hp : nt.parent r = some (.CPL, rp)) (hn : (h.node rp).tag ∈ nominal) (H : AsNoun c tokens tg t j) :
    (h.node r).tag ∈ nominal := by
  obtain ⟨r', s, tag, l, x, k1, k2, k3, k4, k5, k6, k7, k8, k9, -⟩ := L.word hw
  have := L.fn k1 hr
  subst this
  obtain ⟨tag', l', a1, a2, a3⟩ := H
  rw [k4] at a1
  cases a1
  have := LemmaOf_unique a2 ⟨s, tag, x, k3, k4, k5⟩
  subst this
  rcases a3 with ⟨a3, a4⟩ | ⟨a3, a4, a5⟩
  · rcases k9 with k9 | ⟨q1, -, ⟨-, q2, -⟩ | ⟨q2, -⟩⟩
    · rwa [k9]
    · rcases a4 with a4 | ⟨d, y, a4, a5⟩
      · exact absurd q2 a4
      · obtain ⟨ry, hy⟩ := L.has a4 (by rintro rfl; exact hw.down _ a4) a5
        have := L.arc.mpr ⟨_, _, k1, hy, a4⟩
        rw [q1] at this
        cases this
    · rw [q2] at a3
      simp [nominal] at a3
  · have : nt.children r' = [] := by
      rw [List.eq_nil_iff_forall_not_mem]
      rintro ⟨d, y⟩ hy
      obtain ⟨z, -, k⟩ := L.child k1 hy
      rw [a5] at k
      cases k
    rw [(L.fixed hw k1 this hp hn k4 a2).2 a3 a4]
    simp [nominal]

theorem Linked.notNoun (L : Linked ck c tokens tg t h nt nodes pos) {j : Nat} {r rp : Ref} (hw : Word t j) (hr : (j, r) ∈ pos)
    (hp : nt.parent r = some (.CPL, rp)) (hn : (h.node rp).tag ∈ nominal) (H : NotNoun c tokens tg t j) :
    (h.node r).tag ∉ nominal := by
  obtain ⟨r', s, tag, l, x, k1, k2, k3, k4, k5, k6, k7, k8, k9, -⟩ := L.word hw
  have := L.fn k1 hr
  subst this
  obtain ⟨tag', l', a1, a2, a3⟩ := H
  rw [k4] at a1
  cases a1
  have := LemmaOf_unique a2 ⟨s, tag, x, k3, k4, k5⟩
  subst this
  rcases a3 with ⟨a3, a4⟩ | ⟨a3, a4, a5⟩
  · rcases k9 with k9 | ⟨q1, -, ⟨q2, -, -⟩ | ⟨q2, q3, -⟩⟩
    · rwa [k9]
    · exact absurd q2 a3
    · rcases a4 q2 with a4 | ⟨d, y, a4, a5⟩
      · exact absurd q3 a4
      · obtain ⟨ry, hy⟩ := L.has a4 (by rintro rfl; exact hw.down _ a4) a5
        have := L.arc.mpr ⟨_, _, k1, hy, a4⟩
        rw [q1] at this
        cases this
  · have : nt.children r' = [] := by
      rw [List.eq_nil_iff_forall_not_mem]
      rintro ⟨d, y⟩ hy
      obtain ⟨z, -, k⟩ := L.child k1 hy
      rw [a5] at k
      cases k
    rw [(L.fixed hw k1 this hp hn k4 a2).1 a3 a4]
    simp [nominal]

/-- Markers of tokens and nodes. -/
theorem Linked.unmarked (L : Linked ck c tokens tg t h nt nodes pos) {j : Nat} {r : Ref} (hr : (j, r) ∈ pos) :
    Unmarked t j ↔ ∀ l x, (l, x) ∈ nt.children r → l ≠ .MARK ∧ l ≠ .CMARK ∧ l ≠ .IMARK := by
  constructor
  · intro H l x hx
    obtain ⟨z, -, k⟩ := L.child hr hx
    exact H _ _ k
  · intro H d x hx
    by_cases hd : d = .FLAT ∨ d = .PART
    · rcases hd with rfl | rfl <;> simp
    · obtain ⟨ry, hy⟩ := L.has hx (fun e => hd (Or.inl e)) (fun e => hd (Or.inr e))
      exact H _ _ (L.arc.mpr ⟨_, _, hr, hy, hx⟩)

theorem Linked.partOf (L : Linked ck c tokens tg t h nt nodes pos) {i j : Nat} {r : Ref} (hw : Word t i) (hr : (i, r) ∈ pos)
    (hn : (h.node r).tag ∈ nominal) (H : PartOf c tokens tg t i j) : ∃ x, (j, x) ∈ pos ∧ Compound h nt nodes x r := by
  obtain ⟨x, -, -, -, -, k1, k2, -⟩ := L.word H.word
  have hp := L.parent H.word hr k1 H.arc
  refine ⟨x, k1, k2, L.asNoun H.word k1 hp hn H.noun, hn, hp, (L.unmarked k1).mp H.unmarked, ?_⟩
  exact (L.order H.word hw k1 hr).mpr H.before

theorem Linked.noPart (L : Linked ck c tokens tg t h nt nodes pos) {i j : Nat} {r x : Ref} (hw : Word t i) (hr : (i, r) ∈ pos)
    (hx : (j, x) ∈ pos) (H : NoPart c tokens tg t i j) : ¬ Compound h nt nodes x r := by
  intro C
  rcases H with H | ⟨w, H | H⟩
  · exact H ((L.unmarked hx).mpr C.noMark)
  · have := (L.order w hw hx hr).mp C.before
    omega
  · exact L.notNoun w hx C.arc C.tagP H C.tagC

theorem Linked.compound_iff (L : Linked ck c tokens tg t h nt nodes pos) {i : Nat} {r : Ref} (hw : Word t i) (hr : (i, r) ∈ pos)
    (hn : (h.node r).tag ∈ nominal)
    (H : ∀ x, (.CPL, x) ∈ t.children i → PartOf c tokens tg t i x ∨ NoPart c tokens tg t i x) {x : Ref} :
    Compound h nt nodes x r ↔ ∃ j, (j, x) ∈ pos ∧ PartOf c tokens tg t i j := by
  constructor
  · intro C
    obtain ⟨j, k1, k2⟩ := L.child hr (L.parMem C.arc)
    rcases H j k2 with k | k
    · exact ⟨j, k1, k⟩
    · exact absurd C (L.noPart hw hr k1 k)
  · rintro ⟨j, k1, k2⟩
    obtain ⟨y, k3, k4⟩ := L.partOf hw hr hn k2
    rw [L.fn k1 k3]
    exact k4

/-- The canonical form of a nominal. -/
theorem Linked.written (L : Linked ck c tokens tg t h nt nodes pos) {i : Nat} {r : Ref} (hw : Word t i) (hr : (i, r) ∈ pos)
    (hn : (h.node r).tag ∈ nominal) {w : Str} (H : Written ck c tokens tg t i (h.node r).tag (h.node r).lem w) (ps : List Str) :
    Props.canonOf (h.node r).tag (h.node r).lem (h.node r).chunk ps =
      if (h.node r).tag = .PRON then (Props.subjectOf (h.node r).lem).getD (h.node r).lem else w := by
  have other : ∀ tag ∈ nominal, ∀ (l : Str) ch, tag ≠ .NOUN ∨ ch = none →
      Props.canonOf tag l ch ps = if tag = .PRON then (Props.subjectOf l).getD l else l := by
    intro tag ht l ch hk
    simp only [nominal, List.mem_cons, List.not_mem_nil, or_false] at ht
    rcases ht with rfl | rfl | rfl | rfl | rfl <;> first
      | (rcases hk with hk | rfl
         · exact absurd rfl hk
         · simp [Props.canonOf])
      | simp [Props.canonOf]
  obtain ⟨hmem, hlem⟩ := L.lem hw hr
  rcases H with ⟨rfl, H⟩ | ⟨hck, ht, ho, is, ls, i1, i2, i3, i4, rfl⟩
  · refine other _ hn _ _ ?_
    by_cases hck : ck = true
    swap
    · exact Or.inr (L.unchunked (by simpa using hck) r)
    rcases H with H | H | H | ⟨p, tag, H, wp, htag, hnom⟩
    · rw [H] at hck
      cases hck
    · exact Or.inl H
    · refine Or.inr ((L.chunk hck r hmem).2 (Or.inl fun x C => ?_))
      obtain ⟨j, k1, k2⟩ := L.child hr (L.parMem C.arc)
      exact L.noPart hw hr k1 (H j k2) C
    · refine Or.inr ((L.chunk hck r hmem).2 (Or.inr ?_))
      obtain ⟨rp, s, tag', l, x, k1, k2, k3, k4, k5, k6, k7, k8, k9, -⟩ := L.word wp
      rw [htag] at k4
      cases k4
      have hch : (Dep.CPL, r) ∈ nt.children rp := L.arc.mpr ⟨_, _, k1, hr, H.arc⟩
      have : (h.node rp).tag = tag := by
        rcases k9 with k9 | ⟨q, -⟩
        · exact k9
        · rw [q] at hch
          cases hch
      obtain ⟨y, y1, y2⟩ := L.partOf wp k1 (by rw [this]; exact hnom) H
      rw [L.fn hr y1]
      exact ⟨_, y2⟩
  · rw [if_neg (by rw [ht]; decide)]
    have hi : i ∈ is := (i2 i).mpr .refl
    have hout : ∀ p, ¬ Compound h nt nodes r p := by
      intro rp C
      obtain ⟨p, k1, k2⟩ := L.above hr C.arc
      rcases ho p k2 with k | ⟨wp, k | ⟨tag, k, k'⟩⟩
      · exact k ((L.unmarked hr).mpr C.noMark)
      · have := (L.order hw wp hr k1).mp C.before
        omega
      · obtain ⟨rp', s, tag', l, x, m1, m2, m3, m4, m5, m6, m7, m8, m9, -⟩ := L.word wp
        have := L.fn m1 k1
        subst this
        rw [k] at m4
        cases m4
        have hch : (Dep.CPL, r) ∈ nt.children rp' := L.arc.mpr ⟨_, _, k1, hr, k2⟩
        have : (h.node rp').tag = tag := by
          rcases m9 with m9 | ⟨q, -⟩
          · exact m9
          · rw [q] at hch
            cases hch
        have := C.tagP
        rw [‹(h.node rp').tag = tag›] at this
        exact k' this
    have down : ∀ {j}, Relation.ReflTransGen (PartOf c tokens tg t) i j → Word t j ∧ ∃ n, (j, n) ∈ pos ∧
        (h.node n).tag ∈ nominal ∧ (n = r ∨ Relation.TransGen (Compound h nt nodes) n r) := by
      intro j hj
      induction hj with
      | refl => exact ⟨hw, r, hr, hn, Or.inl rfl⟩
      | tail hb hj ih =>
        obtain ⟨wb, n, k1, k2, k3⟩ := ih
        obtain ⟨x, x1, x2⟩ := L.partOf wb k1 k2 hj
        refine ⟨hj.word, x, x1, x2.tagC, Or.inr ?_⟩
        rcases k3 with rfl | k3
        · exact .single x2
        · exact .head x2 k3
    have up : ∀ {n}, n = r ∨ Relation.TransGen (Compound h nt nodes) n r → ∃ j ∈ is, (j, n) ∈ pos := by
      intro n hn'
      rcases hn' with rfl | hn'
      · exact ⟨i, hi, hr⟩
      have step : ∀ {x y}, Compound h nt nodes x y → (∃ j ∈ is, (j, y) ∈ pos) → ∃ j ∈ is, (j, x) ∈ pos := by
        rintro x y C ⟨j, hj, hy⟩
        have hj' := (i2 j).mp hj
        obtain ⟨wj, n, k1, k2, -⟩ := down hj'
        have := L.fn k1 hy
        subst this
        obtain ⟨z, z1, z2⟩ := (L.compound_iff wj hy k2 (i3 j hj)).mp C
        exact ⟨z, (i2 z).mpr (hj'.tail z2), z1⟩
      induction hn' using Relation.TransGen.head_induction_on with
      | single C => exact step C ⟨i, hi, hr⟩
      | head C _ ih => exact step C ih
    have wordOf : ∀ {j}, j ∈ is → Word t j := fun hj => (down ((i2 _).mp hj)).1
    by_cases hc : ∃ x, Compound h nt nodes x r
    · obtain ⟨ns, n1, n2⟩ := (L.chunk hck r hmem).1 hc hout
      have at_ : ∀ n ∈ ns, ∃ j, j ∈ is ∧ (j, n) ∈ pos := fun n hn' => by
        obtain ⟨j, j1, j2⟩ := up ((n1.mem n).mp hn')
        exact ⟨j, j1, j2⟩
      obtain ⟨f, hidx⟩ : ∃ f : Ref → Nat, ∀ n ∈ ns, f n ∈ is ∧ (f n, n) ∈ pos := by
        classical
        exact ⟨fun n => if h : n ∈ ns then (at_ n h).choose else 0, fun n hn' => by
          simp only [dif_pos hn']; exact (at_ n hn').choose_spec⟩
      have hnd : (ns.map f).Nodup := by
        refine (List.nodup_map_iff_inj_on n1.once).mpr fun x hx y hy e => ?_
        have := (hidx x hx).2
        rw [e] at this
        exact L.fn this (hidx y hy).2
      have hord : (ns.map f).Pairwise (· ≤ ·) := by
        rw [List.pairwise_map]
        refine n1.order.imp_of_mem fun {a b} ha hb hab => ?_
        by_contra hc
        have := (L.order (wordOf (hidx b hb).1) (wordOf (hidx a ha).1) (hidx b hb).2 (hidx a ha).2).mpr (by omega)
        omega
      have heq : ns.map f = is := by
        have i1' : is.Nodup := i1.imp fun k => Nat.ne_of_lt k
        refine List.Perm.eq_of_pairwise (fun a b _ _ h1 h2 => Nat.le_antisymm h1 h2) hord
          (i1.imp fun k => Nat.le_of_lt k) ((List.perm_ext_iff_of_nodup hnd i1').mpr fun j => ?_)
        constructor
        · intro hj
          obtain ⟨n, hn', rfl⟩ := List.mem_map.mp hj
          exact (hidx n hn').1
        · intro hj
          obtain ⟨wj, n, k1, -, k3⟩ := down ((i2 j).mp hj)
          have hn' := (n1.mem n).mpr k3
          exact List.mem_map.mpr ⟨n, hn', L.inj (hidx n hn').2 k1⟩
      have hls : ls = ns.map fun n => (h.node n).lem := by
        rw [← heq, List.forall₂_map_left_iff] at i4
        have hall : ∀ n ∈ ns, LemmaOf c tokens tg (f n) (h.node n).lem := fun n hn' =>
          (L.lem (wordOf (hidx n hn').1) (hidx n hn').2).2
        clear n1 n2 hidx hnd heq hord at_
        induction i4 with
        | nil => rfl
        | cons k _ ih =>
          rw [List.map_cons, ← ih fun n hn' => hall n (List.mem_cons_of_mem _ hn'),
            LemmaOf_unique k (hall _ List.mem_cons_self)]
      rw [hls, ← join_eq_intercalate, ht, n2]
      obtain ⟨x, C⟩ := hc
      have hx : x ∈ ns := (n1.mem x).mpr (Or.inr (.single C))
      have hr' : r ∈ ns := (n1.mem r).mpr (Or.inl rfl)
      have hxr : x ≠ r := by
        rintro rfl
        exact absurd C.before (by omega)
      obtain ⟨a, b, ns', rfl⟩ : ∃ a b ns', ns = a :: b :: ns' := by
        match ns, hx, hr' with
        | [y], hx, hr' =>
          exact absurd ((List.mem_singleton.mp hx).trans (List.mem_singleton.mp hr').symm) hxr
        | a :: b :: ns', _, _ => exact ⟨a, b, ns', rfl⟩
      simp only [List.map_cons, join]
      generalize (h.node a).lem = la
      cases la <;> rfl
    · have : is = [i] := by
        have honly : ∀ j ∈ is, j = i := by
          intro j hj
          obtain ⟨wj, n, k1, -, k3⟩ := down ((i2 j).mp hj)
          rcases k3 with rfl | k3
          · exact L.inj k1 hr
          · obtain ⟨y, -, k⟩ := Relation.TransGen.tail'_iff.mp k3
            exact absurd ⟨y, k⟩ hc
        match is, i1, hi, honly with
        | [x], _, _, honly => rw [honly x (by simp)]
        | x :: y :: l, i1, _, honly =>
          have e1 := honly x (by simp)
          have e2 := honly y (by simp)
          have := (List.pairwise_cons.mp i1).1 y (by simp)
          omega
      subst this
      cases i4 with
      | cons k h' =>
        cases h'
        rw [LemmaOf_unique k hlem]
        have e1 := other _ hn (h.node r).lem (h.node r).chunk
          (Or.inr ((L.chunk hck r hmem).2 (Or.inl fun x C => hc ⟨x, C⟩)))
        rw [if_neg (by rw [ht]; decide)] at e1
        rw [e1]
        simp [List.intercalate]

/-- What is known of the node of a nominal. -/
structure NounNode (tg : List Tag) (t : Tree Dep Nat) (h h' : Heap) (nodes : List Ref) (pos : Dict Nat Ref) (w : Nat) (a : Argument)
    (r : Ref) : Prop where
  pos : (w, r) ∈ pos
  mem : r ∈ nodes
  tag : tg[w]? = some (h.node r).tag
  nominal : (h.node r).tag ∈ Spec.nominal
  canon : (h.node r).canon = a.word
  isNoun : IsNoun h' r a
  nominal' : Nominal h' r
  aff : (h'.node r).isAff = positive t w

theorem Linked.noun (L : Linked ck c tokens tg t h nt nodes pos) (A : ArgsFound h nt nodes h') {w : Nat} {a : Argument}
    (hw : Word t w) (hc : Called ck c tokens tg t w a)
    (hs : Stable t w ∨ ∀ l, LemmaOf c tokens tg w l → l ∉ c.lemmatizer.adjs) : ∃ r, NounNode tg t h h' nodes pos w a r := by
  obtain ⟨r, s, tag, l, x, k1, k2, k3, k4, k5, k6, k7, k8, k9, k10, k11⟩ := L.word hw
  obtain ⟨l', tag', w', c1, c2, c3, c4, c5, cw, c6⟩ := hc
  rw [k4] at c2; cases c2
  have hlem : LemmaOf c tokens tg w l := ⟨s, tag, x, k3, k4, k5⟩
  have := LemmaOf_unique c1 hlem
  subst this
  have ht : (h.node r).tag = tag := by
    rcases k9 with k9 | ⟨q1, q2, q3⟩
    · exact k9
    · exfalso
      rcases hs with hs | hs
      · exact L.stable hs k1 ⟨q1, q2⟩
      · rcases q3 with ⟨-, q, -⟩ | ⟨q, -⟩
        · exact hs _ hlem q
        · rw [q] at c3; simp [nominal] at c3
  obtain ⟨e1, e2, -, -, -, -⟩ := ArgsFound_keeps A r
  have hcan : (h.node r).canon = a.word := by
    rw [← k6, ← ht] at cw
    rw [k10, ← k6, L.written hw k1 (by rw [ht]; exact c3) cw, ht, c6, k6]
  exact ⟨r, k1, k2, by rw [ht]; exact k4, by rw [ht]; exact c3, hcan, ⟨by rw [e2, hcan], by rw [e1, ht]; exact c4, c5⟩,
    by unfold Nominal; rw [e1, ht]; exact c3, L.aff A k1 k2⟩

/-- What is known of the node of a verb. -/
structure VerbNode (t : Tree Dep Nat) (h h' : Heap) (nodes : List Ref) (pos : Dict Nat Ref) (w : Nat) (u : Str)
    (r : Ref) : Prop where
  pos : (w, r) ∈ pos
  mem : r ∈ nodes
  tag : (h.node r).tag = .VERB
  tag' : (h'.node r).tag = .VERB
  canon' : (h'.node r).canon = u
  aff : (h'.node r).isAff = positive t w

theorem Linked.verb (L : Linked ck c tokens tg t h nt nodes pos) (A : ArgsFound h nt nodes h') {v : Nat} {u : Str}
    (hw : Word t v) (hc : SaidBy c tokens tg t v u) : ∃ r, VerbNode t h h' nodes pos v u r ∧
      LemmaOf c tokens tg v (h'.node r).lem ∧ PartWords c.lower tokens (t.children v) v (h'.node r).particles ∧
      ((h'.node r).isInfTo = true ↔ InfTo c.lower tokens (t.children v) v) := by
  obtain ⟨r, s, tag, l, x, k1, k2, k3, k4, k5, k6, k7, k8, k9, k10, k11⟩ := L.word hw
  obtain ⟨l', ps, c0, c1, c2, c3⟩ := hc
  rw [k4] at c0; cases c0
  have hlem : LemmaOf c tokens tg v l := ⟨s, _, x, k3, k4, k5⟩
  have := LemmaOf_unique c1 hlem
  subst this
  have := PartWords_unique c2 k7
  subst this
  have ht : (h.node r).tag = .VERB := by
    rcases k9 with k9 | ⟨q1, q2, q3 | q3⟩
    · exact k9
    · have := q3.1; simp [nominal] at this
    · cases q3.1
  obtain ⟨e1, e2, e3, e4, e5, -⟩ := ArgsFound_keeps A r
  refine ⟨r, ⟨k1, k2, ht, by rw [e1, ht], ?_, L.aff A k1 k2⟩, by rw [e3, k6]; exact hlem, by rw [e4]; exact k7, by rw [e5]; exact k8⟩
  rw [e2, k10, ht, c3]
  rfl

theorem Linked.attached (L : Linked ck c tokens tg t h nt nodes pos) {d : Dep} {w : Nat} {r : Ref} (h1 : (w, r) ∈ pos)
    (hno : ∀ x, (d, x) ∉ t.children w) : ∀ x, ¬ AttachedBy nt nodes d r x := by
  rintro x ⟨node, -, hp, -⟩
  obtain ⟨w', -, k⟩ := L.child h1 (L.parMem hp)
  exact hno _ k

/-- A verb that is neither subject nor object is not what an object means. -/
theorem Linked.notMeant (L : Linked ck c tokens tg t h nt nodes pos) {v : Nat} {r : Ref} (hv : (v, r) ∈ pos)
    (ht : (h.node r).tag = .VERB) (hfree : ∀ d p, (d, v) ∈ t.children p → d ≠ .SUBJ ∧ d ≠ .OBJ) {verb node : Ref}
    (hp : nt.parent node = some (.OBJ, verb)) :
    ¬ Meant (RelReferent h nt verb node) (ReflexiveObj h nt verb node) node r := by
  rintro (k | ⟨-, k⟩ | ⟨-, -, k⟩)
  · have := k.2.2.2.1
    rw [ht] at this
    simp [nominal] at this
  · have : (Dep.SUBJ, r) ∈ nt.children verb := L.viaMem.mp (List.mem_of_head? k.2)
    obtain ⟨k, k', k1, k2, k3⟩ := L.arc.mp this
    have := L.inj k2 hv
    subst this
    exact (hfree _ _ k3).1 rfl
  · subst k
    obtain ⟨w', -, k⟩ := L.above hv hp
    exact (hfree _ _ k).2 rfl

/-- Nor is it the object of anything, if what it is coordinated to is not either. -/
theorem Linked.notObj (L : Linked ck c tokens tg t h nt nodes pos) (A : ArgsFound h nt nodes h') {v : Nat} {r : Ref}
    (hv : (v, r) ∈ pos) (ht : (h.node r).tag = .VERB) (hfree : ∀ d p, (d, v) ∈ t.children p → d ≠ .SUBJ ∧ d ≠ .OBJ)
    (hup : ∀ d p, (d, v) ∈ t.children p → d = .AND ∨ d = .OR → ∃ rp, (p, rp) ∈ pos ∧ (h.node rp).tag = .VERB ∧
      ∀ d q, (d, p) ∈ t.children q → d ≠ .SUBJ ∧ d ≠ .OBJ) : ¬ Embedded h' nodes r := by
  rintro ⟨s, v', -, -, -, -, ho, -⟩
  rw [A.objs] at ho
  have conj : ∀ x, Conjunct nt nodes x r → ∃ k, (k, x) ∈ pos ∧ (h.node x).tag = .VERB ∧
      ∀ d q, (d, k) ∈ t.children q → d ≠ .SUBJ ∧ d ≠ .OBJ := by
    rintro x ⟨-, k | k⟩ <;>
      (obtain ⟨k, k', k1, k2, k3⟩ := L.arc.mp k
       have := L.inj k2 hv
       subst this
       obtain ⟨rp, q1, q2, q3⟩ := hup _ _ k3 (by simp)
       rw [← L.fn k1 q1] at q2
       exact ⟨k, k1, q2, q3⟩)
  have nn : ∀ x, (h.node x).tag = .VERB → (h.node x).tag ∉ nominal := by
    intro x e
    rw [e]
    simp [nominal]
  rcases ho with ⟨verb, node, ref, -, hp, hmean, hg, -⟩ | ⟨verb, p, subj, -, -, -, hn, -, -, -, hg, -⟩
  · rcases hg with rfl | hg
    · exact L.notMeant hv ht hfree hp hmean
    · obtain ⟨k, k1, k2, k3⟩ := conj _ hg
      exact L.notMeant k1 k2 k3 hp hmean
  · rcases hg with rfl | hg
    · exact nn _ ht hn
    · obtain ⟨k, k1, k2, k3⟩ := conj _ hg
      exact nn _ k2 hn

theorem Linked.heads (L : Linked ck c tokens tg t h nt nodes pos) (A : ArgsFound h nt nodes h') {v : Nat} {u : Str} {r : Ref}
    (V : VerbNode t h h' nodes pos v u r)
    (hto : (h'.node r).isInfTo = true ↔ InfTo c.lower tokens (t.children v) v)
    (plain : ∀ d x, (d, x) ∈ t.children v → d ≠ .PROP ∧ d ≠ .IPROP ∧ d ≠ .EXIST)
    (noTo : ¬ InfTo c.lower tokens (t.children v) v) : Heads h' r := by
  refine ⟨V.tag', ?_, ?_⟩
  · rw [Bool.eq_false_iff]
    exact fun e => noTo (hto.mp e)
  · refine ⟨?_, ?_, ?_⟩ <;> rw [List.eq_nil_iff_forall_not_mem] <;> intro x
    · rw [A.props]; exact L.attached V.pos (fun y hy => (plain _ _ hy).1 rfl) x
    · rw [A.iprops]; exact L.attached V.pos (fun y hy => (plain _ _ hy).2.1 rfl) x
    · rw [A.exist]; exact L.attached V.pos (fun y hy => (plain _ _ hy).2.2 rfl) x

theorem Linked.main (L : Linked ck c tokens tg t h nt nodes pos) (A : ArgsFound h nt nodes h') {v : Nat} {u : Str}
    (hm : Main c tokens tg t v) (hc : SaidBy c tokens tg t v u) : ∃ r, VerbNode t h h' nodes pos v u r ∧
      Heads h' r ∧ ¬ Embedded h' nodes r ∧
      LemmaOf c tokens tg v (h'.node r).lem ∧ PartWords c.lower tokens (t.children v) v (h'.node r).particles := by
  obtain ⟨r, V, l1, l2, l3⟩ := L.verb A hm.toWord hc
  refine ⟨r, V, L.heads A V l3 hm.plain hm.noTo, L.notObj A V.pos V.tag (fun d p k => ?_) (fun d p k e => ?_), l1, l2⟩
  · exact ⟨(hm.free _ _ k).1, (hm.free _ _ k).2.1⟩
  · have := (hm.free _ _ k).2.2
    tauto

theorem Linked.coVerb (L : Linked ck c tokens tg t h nt nodes pos) (A : ArgsFound h nt nodes h') {v v' : Nat} {u : Str} {rv : Ref}
    (hm : Main c tokens tg t v) (hv : (v, rv) ∈ pos) (ht : (h.node rv).tag = .VERB) (H : CoVerb c tokens tg t v v')
    (hc : SaidBy c tokens tg t v' u) : ∃ r, VerbNode t h h' nodes pos v' u r ∧
      Heads h' r ∧ ¬ Embedded h' nodes r ∧ (rv ∈ nodes → SharesSubj nt nodes rv r) := by
  obtain ⟨r, V, l1, l2, l3⟩ := L.verb A H.toWord hc
  have lab : ∀ d p, (d, v') ∈ t.children p → d = .AND ∨ d = .OR := by
    intro d p k
    rcases H.arc with e | e
    · exact Or.inl (L.label k e)
    · exact Or.inr (L.label k e)
  refine ⟨r, V, L.heads A V l3 H.plain H.noTo, L.notObj A V.pos V.tag (fun d p k => ?_) (fun d p k e => ?_), ?_⟩
  · rcases lab d p k with rfl | rfl <;> simp
  · have : p = v := by
      rcases H.arc with q | q
      · exact H.one _ _ _ _ k q
      · exact H.one _ _ _ _ k q
    subst this
    exact ⟨rv, hv, ht, fun d q k => ⟨(hm.free _ _ k).1, (hm.free _ _ k).2.1⟩⟩
  · intro hmem
    refine Or.inr ⟨⟨hmem, ?_⟩, ?_⟩
    · rcases H.arc with q | q
      · exact Or.inl (L.arc.mpr ⟨_, _, hv, V.pos, q⟩)
      · exact Or.inr (L.arc.mpr ⟨_, _, hv, V.pos, q⟩)
    · rintro ⟨x, k⟩
      obtain ⟨y, -, k'⟩ := L.child V.pos k
      exact H.noSubj _ k'

theorem Linked.group (L : Linked ck c tokens tg t h nt nodes pos) {i j : Nat} {r r' : Ref} (h1 : (i, r) ∈ pos) (hm : r ∈ nodes)
    (h2 : (j, r') ∈ pos) (hj : Member t i j) : Group nt nodes r r' := by
  rcases hj with rfl | hj | hj
  · exact Or.inl (L.fn h2 h1)
  · exact Or.inr ⟨hm, Or.inl (L.arc.mpr ⟨_, _, h1, h2, hj⟩)⟩
  · exact Or.inr ⟨hm, Or.inr (L.arc.mpr ⟨_, _, h1, h2, hj⟩)⟩

/-- The nodes of an argument and of a member of its coordination. -/
theorem Linked.stands (L : Linked ck c tokens tg t h nt nodes pos) (A : ArgsFound h nt nodes h') {d : Dep} {v i j : Nat}
    {a₀ a : Argument} {rv : Ref} (hv : (v, rv) ∈ pos) (H : Stands ck c tokens tg t d v i j a₀ a)
    (hd : d ≠ .CPL ∧ d ≠ .PROP ∧ d ≠ .IPROP) : ∃ r r', NounNode tg t h h' nodes pos i a₀ r ∧ NounNode tg t h h' nodes pos j a r' ∧
      nt.parent r = some (d, rv) ∧ Group nt nodes r r' := by
  obtain ⟨r, R⟩ := L.noun A H.word H.called (Or.inl (Or.inl ⟨_, _, H.arc, hd⟩))
  have hs : Stable t j := by
    rcases H.member with rfl | hj | hj
    · exact Or.inl ⟨_, _, H.arc, hd⟩
    · exact Or.inl ⟨_, _, hj, by simp, by simp, by simp⟩
    · exact Or.inl ⟨_, _, hj, by simp, by simp, by simp⟩
  obtain ⟨r', R'⟩ := L.noun A H.word' H.called' (Or.inl hs)
  exact ⟨r, r', R, R', L.parent H.word hv R.pos H.arc, L.group R.pos R.mem R'.pos H.member⟩

theorem Linked.notRel (L : Linked ck c tokens tg t h nt nodes pos) {v : Nat} {rv r : Ref} {i : Nat} {a₀ : Argument}
    (hv : (v, rv) ∈ pos) (R : NounNode tg t h h' nodes pos i a₀ r)
    (hrel : (∃ n, (.CPL, v) ∈ t.children n) → a₀.word ∉ relatives) (p : Ref) : ¬ RelReferent h nt rv r p := by
  rintro ⟨-, k2, k3, -, -⟩
  rw [R.canon] at k2
  obtain ⟨n, -, k⟩ := L.above hv k3
  exact hrel ⟨n, k⟩ (by simpa [relatives] using k2)

theorem Linked.subj (L : Linked ck c tokens tg t h nt nodes pos) (A : ArgsFound h nt nodes h') {v i j : Nat} {a₀ a : Argument}
    {rv : Ref} (hv : (v, rv) ∈ pos) (hfree : ∀ p, (.OBJ, v) ∉ t.children p) (H : Stands ck c tokens tg t .SUBJ v i j a₀ a)
    (hrel : (∃ n, (.CPL, v) ∈ t.children n) → a₀.word ∉ relatives) :
    ∃ r, NounNode tg t h h' nodes pos j a r ∧ r ∈ (h'.node rv).subjs ∧
      ∀ rv', SharesSubj nt nodes rv rv' → r ∈ (h'.node rv').subjs := by
  obtain ⟨r, r', R, R', hp, hg⟩ := L.stands A hv H (by simp)
  have key : ∀ rv', SharesSubj nt nodes rv rv' → r' ∈ (h'.node rv').subjs := ?_
  · exact ⟨r', R', key rv (Or.inl rfl), key⟩
  intro rv' hsh
  rw [A.subjs]
  refine Or.inl ⟨rv, r, r, R.mem, hp, Or.inr (Or.inr ⟨L.notRel hv R hrel, ?_, rfl⟩), hg, hsh⟩
  rintro y ⟨-, p, k, -⟩
  obtain ⟨w', -, k'⟩ := L.above hv k
  exact hfree _ k'

theorem Linked.obj (L : Linked ck c tokens tg t h nt nodes pos) (A : ArgsFound h nt nodes h') {v i j : Nat} {a₀ a : Argument}
    {rv : Ref} (hv : (v, rv) ∈ pos) (H : Stands ck c tokens tg t .OBJ v i j a₀ a)
    (hrel : (∃ n, (.CPL, v) ∈ t.children n) → a₀.word ∉ relatives) (hrefl : a₀.word ∉ reflexives) :
    ∃ r, NounNode tg t h h' nodes pos j a r ∧ r ∈ (h'.node rv).objs := by
  obtain ⟨r, r', R, R', hp, hg⟩ := L.stands A hv H (by simp)
  refine ⟨r', R', ?_⟩
  rw [A.objs]
  refine Or.inl ⟨rv, r, r, R.mem, hp, Or.inr (Or.inr ⟨L.notRel hv R hrel, ?_, rfl⟩), hg, Or.inl rfl⟩
  rintro y ⟨k, -⟩
  unfold Spec.Reflexive at k
  rw [R.canon] at k
  exact hrefl k

/-- A verb that is no complement and has no object arc has no object. -/
theorem Linked.noObj (L : Linked ck c tokens tg t h nt nodes pos) (A : ArgsFound h nt nodes h') {v : Nat} {rv : Ref}
    (hv : (v, rv) ∈ pos) (hfree : ∀ d p, (d, v) ∈ t.children p → d ≠ .CPL ∧ d ≠ .AND ∧ d ≠ .OR)
    (hno : ∀ x, (.OBJ, x) ∉ t.children v) : (h'.node rv).objs = [] := by
  rw [List.eq_nil_iff_forall_not_mem]
  intro x
  rw [A.objs]
  have shares : ∀ verb, SharesObj nt nodes verb rv → verb = rv := by
    rintro verb (e | ⟨⟨-, k | k⟩, -⟩)
    · exact e.symm
    all_goals
      obtain ⟨k, k', k1, k2, k3⟩ := L.arc.mp k
      have := L.inj k2 hv
      subst this
      have := hfree _ _ k3
      tauto
  rintro (⟨verb, node, ref, -, hp, -, -, hsh⟩ | ⟨verb, p, subj, -, hp, -, -, -, -, -, -, hsh⟩)
  · rw [shares _ hsh] at hp
    obtain ⟨w', -, k⟩ := L.child hv (L.parMem hp)
    exact hno _ k
  · rw [shares _ hsh] at hp
    obtain ⟨w', -, k⟩ := L.above hv hp
    exact (hfree _ _ k).1 rfl

/-- A verb that is neither complement nor coordinated and has no subject arc has no subject. -/
theorem Linked.noSubj (L : Linked ck c tokens tg t h nt nodes pos) (A : ArgsFound h nt nodes h') {v : Nat} {rv : Ref}
    (hv : (v, rv) ∈ pos) (hfree : ∀ d p, (d, v) ∈ t.children p → d ≠ .CPL ∧ d ≠ .AND ∧ d ≠ .OR)
    (hno : ∀ x, (.SUBJ, x) ∉ t.children v) : (h'.node rv).subjs = [] := by
  rw [List.eq_nil_iff_forall_not_mem]
  intro x
  rw [A.subjs]
  have shares : ∀ verb, SharesSubj nt nodes verb rv → verb = rv := by
    rintro verb (e | ⟨⟨-, k | k⟩, -⟩)
    · exact e.symm
    all_goals
      obtain ⟨k, k', k1, k2, k3⟩ := L.arc.mp k
      have := L.inj k2 hv
      subst this
      have := hfree _ _ k3
      tauto
  rintro (⟨verb, node, ref, -, hp, -, -, hsh⟩ | ⟨verb, p, subj, -, hp, -, -, -, -, -, -, hsh⟩)
  · rw [shares _ hsh] at hp
    obtain ⟨w', -, k⟩ := L.child hv (L.parMem hp)
    exact hno _ k
  · rw [shares _ hsh] at hp
    obtain ⟨w', -, k⟩ := L.above hv hp
    exact (hfree _ _ k).1 rfl

theorem Linked.first (L : Linked ck c tokens tg t h nt nodes pos) {v s : Nat} {d : Dep} {rv r : Ref}
    (hv : (v, rv) ∈ pos) (hr : (s, r) ∈ pos) (ha : (d, s) ∈ t.children v) (hone : ∀ x, (d, x) ∈ t.children v → x = s) :
    FirstChild nt rv d r := by
  unfold FirstChild
  have hm : r ∈ nt.childrenVia rv d := L.viaMem.mpr (L.arc.mpr ⟨_, _, hv, hr, ha⟩)
  cases hl : nt.childrenVia rv d with
  | nil => rw [hl] at hm; cases hm
  | cons x l =>
    have : x ∈ nt.childrenVia rv d := by rw [hl]; simp
    obtain ⟨w', k1, k2⟩ := L.child hv (L.viaMem.mp this)
    have := hone _ k2
    subst this
    rw [L.fn k1 hr]
    rfl

/-- What is known of the node of an adjective. -/
structure AdjNode (t : Tree Dep Nat) (h h' : Heap) (nodes : List Ref) (pos : Dict Nat Ref) (w : Nat) (b : Argument)
    (r : Ref) : Prop where
  pos : (w, r) ∈ pos
  mem : r ∈ nodes
  tag : (h.node r).tag = .ADJ
  tag' : (h'.node r).tag = .ADJ
  isAdj : IsAdj h' r b
  aff : (h'.node r).isAff = positive t w

theorem Linked.adj (L : Linked ck c tokens tg t h nt nodes pos) (A : ArgsFound h nt nodes h') {w : Nat} {b : Argument}
    (hw : Word t w) (hc : Adjective c tokens tg t w b) : ∃ r, AdjNode t h h' nodes pos w b r ∧
      PartWords c.lower tokens (t.children w) w (h'.node r).particles ∧
      ∀ s l' , Spelled c tokens w s → c.lemmatizer.call s .VERB = .ok (l', some .PAST) →
        (h'.node r).activeVerb = some (List.intercalate c!" " (l' :: (h'.node r).particles)) := by
  obtain ⟨r, s, tag, l, x, k1, k2, k3, k4, k5, k6, k7, k8, k9, k10, k11⟩ := L.word hw
  obtain ⟨s₁, l₁, ps, l', x', c1, c2, c3, c4, c5, c6, c7, c8, c9⟩ := hc
  rw [k4] at c2; cases c2
  have hlem : LemmaOf c tokens tg w l := ⟨s, _, x, k3, k4, k5⟩
  have := LemmaOf_unique c3 hlem
  subst this
  have := PartWords_unique c5 k7
  subst this
  have spell : ∀ {s'}, Spelled c tokens w s' → s' = s := by
    rintro s' ⟨tok', q1, q2⟩
    obtain ⟨tok, p1, p2⟩ := k3
    rw [p1] at q1; cases q1
    rw [p2] at q2; cases q2
    rfl
  have := spell c1
  subst this
  have ht : (h.node r).tag = .ADJ := by
    rcases k9 with k9 | ⟨q1, q2, q3 | q3⟩
    · exact k9
    · have := q3.1; simp [nominal] at this
    · exact absurd q3.2.1 c4
  obtain ⟨l₂, x₂, m1, -, m3⟩ := k11 ht
  rw [c6] at m1
  obtain ⟨rfl, rfl⟩ := Prod.mk.inj (Except.ok.inj m1)
  obtain ⟨e1, e2, -, e4, -, e6⟩ := ArgsFound_keeps A r
  refine ⟨r, ⟨k1, k2, ht, by rw [e1, ht], ⟨?_, ?_, c8⟩, L.aff A k1 k2⟩, by rw [e4]; exact k7, ?_⟩
  · rw [e2, k10, ht, c7]; rfl
  · rw [c9]
    by_cases hx : x' = some .PAST
    · rw [if_pos hx] at m3
      have hne : List.intercalate c!" " (l' :: (h.node r).particles) ≠ [] ↔ l' ≠ [] ∨ (h.node r).particles ≠ [] := by
        rw [← join_eq_intercalate]
        cases (h.node r).particles with
        | nil => simp [join]
        | cons p ps => simp [join]
      by_cases hn : l' ≠ [] ∨ (h.node r).particles ≠ []
      · rw [if_pos ⟨hx, hn⟩]
        exact .pp (w := List.intercalate c!" " (l' :: (h.node r).particles)) ⟨by rw [e6, m3], hne.mpr hn⟩
      · rw [if_neg (fun k => hn k.2)]
        refine .adj fun w' k => ?_
        rw [ActiveVerb, e6, m3] at k
        obtain ⟨k1, k2⟩ := k
        cases k1
        exact hn (hne.mp k2)
    · rw [if_neg hx] at m3
      rw [if_neg (fun k => hx k.1)]
      refine .adj fun w' k => ?_
      rw [ActiveVerb, e6, m3] at k
      cases k.1
  · intro s' l₂ hs' hv
    rw [spell hs'] at hv
    rw [c6] at hv
    obtain ⟨rfl, rfl⟩ := Prod.mk.inj (Except.ok.inj hv)
    rw [e6, e4, m3, if_pos rfl]

/-- What is known of the node of a property. -/
structure PropNode (t : Tree Dep Nat) (h h' : Heap) (nodes : List Ref) (pos : Dict Nat Ref) (w : Nat) (b : Argument)
    (r : Ref) : Prop where
  pos : (w, r) ∈ pos
  mem : r ∈ nodes
  tag' : (h'.node r).tag ∈ nominal ∨ (h'.node r).tag = .ADJ
  isProp : IsProp h' r b
  aff : (h'.node r).isAff = positive t w

theorem Linked.property (L : Linked ck c tokens tg t h nt nodes pos) (A : ArgsFound h nt nodes h') {w : Nat} {b : Argument}
    (hw : Word t w) (hc : Property ck c tokens tg t w b) : ∃ r, PropNode t h h' nodes pos w b r := by
  rcases hc with ⟨h1, h2⟩ | h1
  · obtain ⟨r, R⟩ := L.noun A hw h1 (Or.inr h2)
    obtain ⟨i1, i2, i3⟩ := R.isNoun
    refine ⟨r, R.pos, R.mem, Or.inl R.nominal', ⟨i1, Or.inr ⟨?_, i2⟩, i3⟩, R.aff⟩
    intro e
    have := R.nominal'
    rw [Nominal, e] at this
    simp [nominal] at this
  · obtain ⟨r, R, -⟩ := L.adj A hw h1
    obtain ⟨i1, i2, i3⟩ := R.isAdj
    exact ⟨r, R.pos, R.mem, Or.inr R.tag', ⟨i1, Or.inl ⟨R.tag', i2⟩, i3⟩, R.aff⟩

end

end Model
