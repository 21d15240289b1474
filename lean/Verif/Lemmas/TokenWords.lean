import Verif.Lemmas.Prose

/-! # Markers of the sentencizer go through the tokenizer -/

namespace Model
open Py

/-- Starts with the first character of a marker. -/
def opens (w : Str) : Bool := w.head? == some '༺' || w.head? == some '⦅'

/-- Value of a word: `ν` for markers, `f` for the others. -/
def val (ν f : Str → Str) (w : Str) : Str := if opens w then ν w else f w

/-- No delimiters of blocks. -/
def Clean (w : Str) : Prop := ∀ c ∈ w, isDelim c = false

theorem Clean.not_opens {w : Str} (h : Clean w) : opens w = false := by
  cases w with
  | nil => rfl
  | cons c w =>
    have hc := h c (by simp)
    simp only [opens, List.head?_cons, Bool.or_eq_false_iff, beq_eq_false_iff_ne, ne_eq, Option.some.injEq]
    constructor <;> rintro rfl <;> exact absurd hc (by decide)

theorem Clean.infix {v w : Str} (h : Clean w) (hv : v <:+: w) : Clean v := fun c hc => h c (hv.subset hc)

theorem Mark.opens {w : Str} (h : Mark w) : opens w = true := by
  obtain ⟨n, rfl | rfl⟩ := h <;> rfl

theorem Mark.chars {w : Str} (h : Mark w) : ∀ c ∈ w, c.isDigit = true ∨ c ∈ ['༺', '༻', '⦅', '⦆'] := by
  obtain ⟨n, rfl | rfl⟩ := h <;> intro c hc
  all_goals
    rcases List.mem_cons.mp hc with rfl | hc
    · simp
    · rcases List.mem_append.mp hc with hc | hc
      · exact .inl (natRepr_isDigit n c hc)
      · rw [List.mem_singleton] at hc
        subst hc
        simp

theorem Mark.not_space {w : Str} (h : Mark w) : ∀ c ∈ w, isSpace c = false := by
  intro c hc
  rcases h.chars c hc with h | h
  · exact digit_not_space h
  · have : ∀ c ∈ ['༺', '༻', '⦅', '⦆'], isSpace c = false := by decide
    exact this c h

theorem Mark.ne_nil {w : Str} (h : Mark w) : w ≠ [] := by
  obtain ⟨n, rfl | rfl⟩ := h <;> simp

theorem Mark.blkOk {w : Str} (h : Mark w) : BlkOk isDelim w := by
  obtain ⟨n, rfl | rfl⟩ := h
  · exact ⟨'༺', natRepr n, '༻', rfl, by decide, by decide, fun c hc => .inr (by simp [isName, natRepr_isDigit n c hc])⟩
  · exact ⟨'⦅', natRepr n, '⦆', rfl, by decide, by decide, fun c hc => .inr (by simp [isName, natRepr_isDigit n c hc])⟩

theorem Mark.plainer {w : Str} (h : Mark w) : plainer w = w := by
  refine plainer_self fun c hc => ?_
  have key : ∀ c, c.isDigit = true → Spec.straight c = c ∧ Spec.isDash c = false := by
    intro c hc
    have h1 : ∀ d ∈ ['‘', '’', '′', '“', '”', '″', '–', '—'], d.isDigit = false := by decide
    have h2 : ∀ d ∈ ['‘', '’', '′', '“', '”', '″', '–', '—'], c ≠ d := by
      rintro d hd rfl
      rw [h1 _ hd] at hc
      cases hc
    simp only [List.mem_cons, List.not_mem_nil, or_false, forall_eq_or_imp, forall_eq] at h2
    simp [Spec.straight, Spec.isDash, h2]
  rcases h.chars c hc with h | h
  · exact key c h
  · have : ∀ c ∈ ['༺', '༻', '⦅', '⦆'], Spec.straight c = c ∧ Spec.isDash c = false := by decide
    exact this c h

/-- Units of a word. -/
def unitsOf (w : Str) : List U := if opens w then [.bk w] else w.map U.ch

theorem encode_unitsOf (w : Str) : encode (unitsOf w) = w := by
  unfold unitsOf
  split
  · simp [U.enc]
  · simp

theorem g_blocks_ch (w : Str) (x y : Bool) : trBlocks.g x (w.map U.ch) y = [] := by
  induction w generalizing x with
  | nil => rfl
  | cons c w ih => simp only [List.map_cons, Track.g, trBlocks, Bool.false_eq_true, if_false]; exact ih _

theorem solids_joinU : ∀ ws : List (List U), solids (joinU ws) = ws.flatMap solids
  | [] => rfl
  | [w] => by simp [joinU]
  | w :: v :: ws => by
    rw [joinU]
    · rw [solids_append, List.flatMap_cons, ← solids_joinU (v :: ws)]
      rfl
    · simp

theorem splitUAux_flatten : ∀ (us cur : List U), (∀ u ∈ cur, u.solid = true) →
    (splitUAux us cur).flatten = cur.reverse ++ solids us
  | [], cur, _ => by
    simp only [splitUAux]
    cases cur <;> simp [solids]
  | u :: us, cur, h => by
    simp only [splitUAux]
    by_cases hu : u.solid = true
    · rw [if_pos hu, splitUAux_flatten us (u :: cur) (by simpa [hu] using h)]
      simp [solids, hu]
    · rw [if_neg hu]
      have ih := splitUAux_flatten us [] (by simp)
      have e : solids (u :: us) = solids us := by simp [solids, hu]
      rw [e]
      cases cur with
      | nil => simpa using ih
      | cons c cur => simpa using ih

theorem splitU_flatten (us : List U) : (splitU us).flatten = solids us := splitUAux_flatten us [] (by simp)

theorem splitU_solid {us w : List U} (hw : w ∈ splitU us) {u : U} (hu : u ∈ w) : u.solid = true := by
  have : u ∈ (splitU us).flatten := List.mem_flatten.mpr ⟨w, hw, hu⟩
  rw [splitU_flatten, solids, List.mem_filter] at this
  exact this.2

/-- A marker between separators within a word is the whole word. -/
theorem word_isolated {w : List U} (hs : ∀ u ∈ w, u.solid = true)
    (hg : ∀ x ∈ trBlocks.g true w true, x.2.1 = true ∧ x.2.2 = true) : (∃ s, w = [.bk s]) ∨ ∃ v : Str, w = v.map U.ch := by
  by_cases hb : ∃ s, U.bk s ∈ w
  · obtain ⟨s, hs'⟩ := hb
    obtain ⟨a, c, rfl⟩ := List.append_of_mem hs'
    refine .inl ⟨s, ?_⟩
    have hx := hg (.bk s, trBlocks.e true a, trBlocks.s c true) (by
      rw [Track.g_append]
      exact List.mem_append_right _ (by simp [Track.g, trBlocks]))
    simp only at hx
    have hc : c = [] := by
      cases c with
      | nil => rfl
      | cons u c =>
        have h1 := hx.2
        have h2 := hs u (by simp)
        cases u with
        | bk t => simp [Track.s, trBlocks] at h1
        | ch d =>
          simp only [Track.s, trBlocks] at h1
          simp [U.solid, h1] at h2
    have ha : a = [] := by
      rcases List.eq_nil_or_concat a with rfl | ⟨a', u, rfl⟩
      · rfl
      · have h1 := hx.1
        have h2 := hs u (by simp)
        rw [List.concat_eq_append, Track.e_append] at h1
        cases u with
        | bk t => simp [Track.e, trBlocks] at h1
        | ch d =>
          simp only [Track.e, trBlocks] at h1
          simp [U.solid, h1] at h2
    simp [ha, hc]
  · refine .inr ⟨encode w, ?_⟩
    clear hs hg
    induction w with
    | nil => rfl
    | cons u w ih =>
      cases u with
      | bk s => exact absurd ⟨s, by simp⟩ hb
      | ch c =>
        have := ih fun ⟨s, hs⟩ => hb ⟨s, by simp [hs]⟩
        simp only [encode_cons, U.enc, List.singleton_append, List.map_cons]
        rw [← this]

theorem forall₂_kept_snd {a b : List (U × Bool × Bool)} (h : List.Forall₂ Kept a b)
    (ha : ∀ x ∈ a, x.2.1 = true ∧ x.2.2 = true) :
    (∀ x ∈ b, x.2.1 = true ∧ x.2.2 = true) ∧ ∀ x ∈ b, x.1 ∈ a.map Prod.fst := by
  induction h with
  | nil => simp
  | @cons x y a b hk _ ih =>
    obtain ⟨i1, i2⟩ := ih fun x hx => ha x (by simp [hx])
    have := ha x (by simp)
    refine ⟨?_, ?_⟩
    · intro z hz
      rcases List.mem_cons.mp hz with rfl | hz
      · exact ⟨hk.2.1 this.1, hk.2.2 this.2⟩
      · exact i1 z hz
    · intro z hz
      rcases List.mem_cons.mp hz with rfl | hz
      · simp [hk.1]
      · simpa using .inr (by simpa using i2 z hz)

/-- The text of the words, without white space and straightened. -/
def inkP (t : Str) : Str := Spec.ink (plainer t)

/-- Value of a unit. -/
def valU (ν : Str → Str) : U → Str
  | .ch c => [c]
  | .bk s => ν s

theorem valU_ch (ν : Str → Str) (w : Str) : (w.map U.ch).flatMap (valU ν) = w := by
  induction w with
  | nil => rfl
  | cons c w ih => simpa [valU] using ih

/-- The words of a text with markers that the tokenizer sees. -/
theorem words_ok {b : Str} (hw : ∀ w ∈ splitWs b, Clean w ∨ Mark w) :
    ∀ v ∈ splitWs (plainer b), (Clean v ∧ ∀ c ∈ v, isSpace c = false) ∨ (Mark v ∧ v ∈ splitWs b) := by
  intro v hv
  have hsp := (splitWs_noBlank (plainer b) v hv).2
  rw [splitWs_plainer, List.mem_flatMap] at hv
  obtain ⟨w, hwb, hv⟩ := hv
  rcases hw w hwb with h | h
  · refine .inl ⟨?_, hsp⟩
    intro c hc
    have hc' := splitWs_mem hv hc
    rcases plainer_mem hc' with h' | rfl | rfl | rfl | rfl
    · exact h c h'
    all_goals decide
  · rw [h.plainer, splitWs_word h.not_space, if_neg h.ne_nil, List.mem_singleton] at hv
    subst hv
    exact .inr ⟨h, hwb⟩

/-- Tokens of a text with markers: the markers are tokens, and all the rest is kept. -/
theorem tokenize_words (db : CharDB) {b : Str} (h : Spec.Prose b) (hw : ∀ w ∈ splitWs b, Clean w ∨ Mark w) :
    (∀ t ∈ tokenize db b, Clean t ∨ (Mark t ∧ t ∈ splitWs b)) ∧
    ((∀ w, Spec.Measure db.digit w → ¬ w <:+: b) → ¬ c!"**" <:+: b →
      ∀ ν, (tokenize db b).flatMap (val ν id) = (splitWs b).flatMap (val ν inkP)) := by
  by_cases hb : b = []
  · subst hb
    refine ⟨?_, fun _ _ ν => rfl⟩
    intro t ht
    rw [show tokenize db [] = [[]] from rfl, List.mem_singleton] at ht
    subst ht
    exact .inl (by intro c hc; cases hc)
  obtain ⟨p, hp, -, e⟩ := tokenize_eq db hb
  have hp := hp _ (Nat.lt_succ_self _)
  rw [sanitize_tidy] at hp
  have hW := words_ok hw
  generalize hWdef : splitWs (plainer b) = W at hW
  have e0 : encode (joinU (W.map unitsOf)) = Spec.tidy b := by
    rw [encode_joinU, List.map_map]
    have : W.map (encode ∘ unitsOf) = W := by
      rw [List.map_congr_left (f := encode ∘ unitsOf) (g := id) fun w _ => encode_unitsOf w, List.map_id]
    rw [this, ← hWdef]
    rfl
  have hpl : PlainU isDelim (joinU (W.map unitsOf)) := by
    intro u hu
    rcases mem_joinU hu with rfl | ⟨x, hx, hu⟩
    · exact .inl ⟨' ', rfl, by decide⟩
    · obtain ⟨v, hv, rfl⟩ := List.mem_map.mp hx
      rcases hW v hv with ⟨hc, -⟩ | ⟨hm, -⟩
      · rw [unitsOf, if_neg (by simp [hc.not_opens]), List.mem_map] at hu
        obtain ⟨c, hcv, rfl⟩ := hu
        exact .inl ⟨c, rfl, hc c hcv⟩
      · rw [unitsOf, if_pos hm.opens, List.mem_singleton] at hu
        exact .inr ⟨v, hu, hm.blkOk, hm⟩
  have hD : ∀ c, isDelim c = true → isDelim c = true := fun _ h => h
  have hD' : isDelim '_' = true := by decide
  have hinv : PInv isDelim (joinU (W.map unitsOf)) p := by
    by_cases hsl : '/' ∈ b
    · obtain ⟨r, hr, hav, hl⟩ := protect_slash h hsl hp
      refine PInv.loop hD hD' (cleanRe_of_avoids hD db hav) hr _
        ⟨⟨joinU (W.map unitsOf), e0.symm, hpl.good [], hpl.sem⟩, by simp⟩ hl
    · exact protectText_inv hD hD' hpl (cleanProt_of_noUrl hD db
        (noUrl_of e0 ⟨h.underscore, h.names, hsl, h.www⟩)) (by rw [e0]; exact hp)
  obtain ⟨vs, e1, hv, hle, hs⟩ := tok_main hD hD' db (noNames_of e0 h) hinv
  clear hinv
  -- the followed units of the text are the markers, all isolated
  have hg0 : ∀ x ∈ trBlocks.g true (joinU (W.map unitsOf)) true,
      (x.2.1 = true ∧ x.2.2 = true) ∧ ∃ v ∈ W, x.1 = .bk v ∧ Mark v ∧ v ∈ splitWs b := by
    intro x hx
    have := g_joinU (T := trBlocks) (dict := []) (W.map unitsOf)
    rw [hpl.sem] at this
    rw [this, List.mem_flatMap] at hx
    obtain ⟨y, hy, hx⟩ := hx
    obtain ⟨v, hv, rfl⟩ := List.mem_map.mp hy
    rcases hW v hv with ⟨hc, -⟩ | ⟨hm, hmb⟩
    · rw [unitsOf, if_neg (by simp [hc.not_opens]), semAll_ch, g_blocks_ch] at hx
      cases hx
    · have hpv : PlainU isDelim [.bk v] := by
        intro u hu
        rw [List.mem_singleton] at hu
        exact .inr ⟨v, hu, hm.blkOk, hm⟩
      rw [unitsOf, if_pos hm.opens, hpv.sem] at hx
      simp only [Track.g, trBlocks, if_true, List.mem_singleton, Track.s] at hx
      subst hx
      exact ⟨⟨rfl, rfl⟩, v, hv, rfl, hm, hmb⟩
  obtain ⟨hk1, hk2⟩ := forall₂_kept_snd hle fun x hx => (hg0 x hx).1
  have htight : ∀ u ∈ vs, u.Tight := by
    intro u hu
    rcases hv u hu with ⟨c, rfl, -⟩ | ⟨s, rfl, -, hm⟩
    · trivial
    · exact ⟨hm.ne_nil, hm.not_space⟩
  have etok : tokenize db b = (splitU vs).map encode := by rw [e, e1, splitWs_encode htight]
  have hword : ∀ w ∈ splitU vs, (∃ s, w = [.bk s] ∧ Mark s ∧ s ∈ splitWs b) ∨ ∃ v : Str, w = v.map U.ch ∧ Clean v := by
    intro w hw
    have hgw : ∀ x ∈ trBlocks.g true w true, x ∈ trBlocks.g true vs true := by
      intro x hx
      have := g_splitU (T := trBlocks) (dict := []) vs
      rw [hv.sem] at this
      rw [this, List.mem_flatMap]
      refine ⟨w, hw, ?_⟩
      have : PlainU isDelim w := fun u hu => hv u (mem_splitU hw hu)
      rw [this.sem]
      exact hx
    rcases word_isolated (fun u hu => splitU_solid hw hu) fun x hx => hk1 x (hgw x hx) with ⟨s, rfl⟩ | ⟨v, rfl⟩
    · left
      have hx : (U.bk s, true, true) ∈ trBlocks.g true vs true := hgw _ (by simp [Track.g, trBlocks, Track.s])
      have := hk2 _ hx
      obtain ⟨y, hy, e⟩ := List.mem_map.mp this
      obtain ⟨-, v, hv, e2, hm, hmb⟩ := hg0 y hy
      rw [e2] at e
      simp only [U.bk.injEq] at e
      subst e
      exact ⟨v, rfl, hm, hmb⟩
    · right
      refine ⟨v, rfl, fun c hc => ?_⟩
      rcases hv (.ch c) (mem_splitU hw (List.mem_map_of_mem hc)) with ⟨d, e, hd⟩ | ⟨s, e, -⟩
      · cases e; exact hd
      · cases e
  refine ⟨?_, ?_⟩
  · intro t ht
    rw [etok, List.mem_map] at ht
    obtain ⟨w, hw, rfl⟩ := ht
    rcases hword w hw with ⟨s, rfl, hm, hmb⟩ | ⟨v, rfl, hc⟩
    · simp only [encode_cons, encode_nil, U.enc, List.append_nil]
      exact .inr ⟨hm, hmb⟩
    · rw [encode_ch]
      exact .inl hc
  · intro hms hst ν
    have hsol := hs (noFeet_of e0 hms) (noStars_of e0 hst)
    have h1 : (tokenize db b).flatMap (val ν id) = (solids vs).flatMap (valU ν) := by
      rw [etok, ← splitU_flatten, List.flatMap_map, List.flatMap_def, List.flatMap_def, List.map_flatten,
        List.flatten_flatten, List.map_map]
      congr 1
      refine List.map_congr_left fun w hw => ?_
      rcases hword w hw with ⟨s, rfl, hm, -⟩ | ⟨v, rfl, hc⟩
      · simp [U.enc, val, hm.opens, valU]
      · have := valU_ch ν v
        rw [List.flatMap_def] at this
        simp only [Function.comp, encode_ch, val, hc.not_opens, this]
        rfl
    have h2 : (solids (joinU (W.map unitsOf))).flatMap (valU ν) = W.flatMap (val ν id) := by
      rw [solids_joinU, List.flatMap_map]
      clear e0 hpl hle hs hg0 hsol e hWdef hk2
      induction W with
      | nil => rfl
      | cons v W ih =>
        rw [List.flatMap_cons, List.flatMap_append, ih fun v hv => hW v (by simp [hv]), List.flatMap_cons]
        congr 1
        rcases hW v (by simp) with ⟨hc, hsp⟩ | ⟨hm, -⟩
        · have hink : Spec.ink v = v := List.filter_eq_self.mpr fun c hc => by simp [hsp c hc]
          rw [unitsOf, if_neg (by simp [hc.not_opens]), solids_ch, hink, valU_ch, val, if_neg (by simp [hc.not_opens])]
          rfl
        · rw [unitsOf, if_pos hm.opens, val, if_pos hm.opens]
          simp [solids, List.filter, U.solid, valU]
    rw [h1, hsol, h2, ← hWdef, splitWs_plainer]
    clear e0 hpl hle hs hg0 hsol h2 hWdef hW h1 etok e hk1 hk2 hb hp
    rw [List.flatMap_assoc]
    refine List.flatMap_congr fun w hwb => ?_
    rcases hw w hwb with hc | hm
    · have hno : ∀ v ∈ splitWs (plainer w), val ν id v = v := by
        intro v hv
        have : Clean v := by
          intro c hcv
          rcases plainer_mem (splitWs_mem hv hcv) with h' | rfl | rfl | rfl | rfl
          · exact hc c h'
          all_goals decide
        rw [val, if_neg (by simp [this.not_opens])]
        rfl
      rw [List.flatMap_congr hno, val, if_neg (by simp [hc.not_opens]), inkP, ← splitWs_flatten]
      simp [List.flatMap_def]
    · rw [hm.plainer, splitWs_word hm.not_space, if_neg hm.ne_nil]
      simp [val, hm.opens]

end Model
