import Verif.Lemmas.TrainingData
import Verif.Props.Samples
import Verif.Props.LabelledData

/-! C89 and C90: reading labelled sentences, extracting training data. -/

namespace Props
open Py Model Spec

/-! ### C89 -/

/-- **C89.** Which labelled sentences can be read: all dependency names are known and, if one token is a `ROOT`, all tag
names are known and no token with a parent label is its own parent. -/
theorem C89_readable (tuples : List RawTuple) :
    (∃ g, GoldSentence.read tuples = .ok g) ↔
      (∀ t ∈ tuples, ∃ d : Dep, t.2.2.1 = d.name) ∧
      ((∃ t ∈ tuples, t.2.2.1 = c!"ROOT") → (∀ t ∈ tuples, ∃ g : Tag, t.2.1 = g.name) ∧
        ∀ (k : Nat) t, tuples[k]? = some t → t.2.2.1 ∉ [c!"ROOT", c!"NODEP"] → t.2.2.2 ≠ k) := by
  unfold GoldSentence.read
  rcases rawRoot_cases tuples 0 with ⟨h1, h2, h3⟩ | ⟨r, h1, h2⟩ | ⟨h1, t, h2, h3⟩
  · rw [h1]
    refine ⟨fun _ => ⟨h2, ?_⟩, fun _ => ⟨{}, rfl⟩⟩
    rintro ⟨t, ht, he⟩
    exact absurd he (h3 t ht)
  · rw [h1]
    show (∃ g, readTokens tuples 0 [] [] [] { root := r } = .ok g) ↔ _
    rw [readTokens_ok_iff]
    simp only [Nat.zero_add]
    constructor
    · rintro ⟨a, b⟩
      exact ⟨fun t ht => (a t ht).1, fun _ => ⟨fun t ht => (a t ht).2, b⟩⟩
    · rintro ⟨a, b⟩
      exact ⟨fun t ht => ⟨a t ht, (b h2).1 t ht⟩, (b h2).2⟩
  · rw [h1]
    constructor
    · rintro ⟨g, hg⟩; cases hg
    · rintro ⟨a, -⟩
      obtain ⟨d, hd⟩ := a t h2
      exact absurd hd (h3 d)

/-- **C89.** Reading raises nothing but `KeyError`, for an unknown name, and `AssertionError`, for a token that is its own
parent. -/
theorem C89_errors (tuples : List RawTuple) (e : PyErr) (h : GoldSentence.read tuples = .error e) :
    e = .key ∧ (∃ t ∈ tuples, (∀ d : Dep, t.2.2.1 ≠ d.name) ∨ ∀ g : Tag, t.2.1 ≠ g.name) ∨
    e = .assertion ∧ ∃ (k : Nat) (t : RawTuple), tuples[k]? = some t ∧ t.2.2.1 ∉ [c!"ROOT", c!"NODEP"] ∧ t.2.2.2 = k := by
  unfold GoldSentence.read at h
  rcases rawRoot_cases tuples 0 with ⟨h1, _, _⟩ | ⟨r, h1, _⟩ | ⟨h1, t, ht, hd⟩
  · rw [h1] at h; cases h
  · rw [h1] at h
    simpa using readTokens_error tuples _ _ _ _ { root := r } e h
  · rw [h1] at h; cases h
    exact Or.inl ⟨rfl, t, ht, Or.inl hd⟩

/-- **C89** (partial: full statement refuted by `C89_no_root_false`). *Reading keeps all tokens with their labels.* It does
for a sentence with a `ROOT`: tokens, tags and dependencies are those of the tuples, and the tree has the given parents and
the first `ROOT` as its root. -/
theorem C89_read_partial (l : List WordTuple) (hroot : ∃ t ∈ l, t.2.2.1 = .ROOT) (g : GoldSentence)
    (h : GoldSentence.read (l.map fun t => (t.1, t.2.1.name, t.2.2.1.name, t.2.2.2)) = .ok g) :
    g.tokens = l.map (·.1) ∧ g.sent.tags = l.map (·.2.1) ∧ g.sent.deps = l.map (·.2.2.1) ∧
    ∃ tree, g.sent.tree = some tree ∧ (∃ t, l[tree.root]? = some t ∧ t.2.2.1 = .ROOT ∧
        ∀ (k : Nat) t', k < tree.root → l[k]? = some t' → t'.2.2.1 ≠ .ROOT) ∧
      ∀ (c p : Nat) (d : Dep), tree.parent c = some (d, p) ↔
        ∃ w tg, l[c]? = some (w, tg, d, (p : Int)) ∧ d ≠ .ROOT ∧ d ≠ .NODEP := by
  replace h : GoldSentence.read (l.map rawTuple) = .ok g := h
  rw [read_typed] at h
  unfold LabelledSentence.new at h
  cases hr : goldRoot (l.map Prod.snd) with
  | none =>
    obtain ⟨t, ht, he⟩ := hroot
    exact absurd he (goldRoot_none.mp hr t.2 (List.mem_map_of_mem ht))
  | some r =>
    rw [hr] at h
    simp only [hroot, if_true, bind, Except.bind, pure, Except.pure] at h
    split at h
    · cases h
    · rename_i tree ht
      cases h
      have inv := buildTree_inv ht
      refine ⟨rfl, by simp, by simp, tree, rfl, ?_, ?_⟩
      · rw [inv.root_eq]
        unfold goldRoot at hr
        rw [Option.map_eq_some_iff] at hr
        obtain ⟨⟨a, i⟩, hf, rfl⟩ := hr
        obtain ⟨h1, as, bs, h2, h3⟩ := List.find?_eq_some_iff_append.mp hf
        have hlen : as.length = i := by
          have := congrArg (fun l => (l[as.length]?).map Prod.snd) h2
          simp only [List.getElem?_zipIdx, List.getElem?_append_right le_rfl, Nat.sub_self, List.getElem?_cons_zero,
            Option.map_some, Option.map_map] at this
          cases hh : (l.map Prod.snd)[as.length]? with
          | none => rw [hh] at this; simp at this
          | some y => rw [hh] at this; simpa using this
        have hget : ∀ (k : Nat) (x : TokenTuple × Nat), as[k]? = some x → ∃ t : WordTuple, l[k]? = some t ∧ t.2 = x.1 := by
          intro k x hx
          have := congrArg (fun l => l[k]?) h2
          simp only [List.getElem?_zipIdx] at this
          rw [List.getElem?_append_left (List.getElem?_eq_some_iff.mp hx).1, hx] at this
          simp only [List.getElem?_map, Option.map_map, Option.map_eq_some_iff] at this
          obtain ⟨t, ht, rfl⟩ := this
          exact ⟨t, ht, rfl⟩
        have hm : (a, i) ∈ (l.map Prod.snd).zipIdx := by rw [h2]; simp
        rw [List.mem_zipIdx_iff_getElem?] at hm
        simp only [List.getElem?_map, Option.map_eq_some_iff] at hm
        obtain ⟨t, htl, rfl⟩ := hm
        refine ⟨t, htl, by simpa using h1, ?_⟩
        intro k t' hk ht'
        simp only at hk
        obtain ⟨x, hx⟩ : ∃ x, as[k]? = some x := ⟨as[k], List.getElem?_eq_getElem (by omega)⟩
        obtain ⟨t, ht, he⟩ := hget k x hx
        rw [ht'] at ht
        cases ht
        rw [he]
        have := h3 x (List.mem_of_getElem? hx)
        simpa using this
      · intro c p d
        rw [inv.parent]
        have hG : GoldArc (l.map Prod.snd) d p c ↔
            ∃ w tg, l[c]? = some (w, tg, d, (p : Int)) ∧ d ≠ .ROOT ∧ d ≠ .NODEP := by
          unfold GoldArc
          simp only [List.getElem?_map, Option.map_eq_some_iff]
          constructor
          · rintro ⟨⟨tg, ⟨w, x⟩, h1, rfl⟩, h2⟩; exact ⟨w, tg, h1, h2⟩
          · rintro ⟨w, tg, h1, h2⟩; exact ⟨⟨tg, _, h1, rfl⟩, h2⟩
        rw [← hG, ← mem_goldArcs]
        exact ⟨lastParent_mem, lastParent_of_single (goldArcs_single _)⟩

/-- **C89** (negation). A sentence without `ROOT` loses its tokens and labels, even wrong ones, without an error. -/
theorem C89_no_root_false (tuples : List RawTuple) (hd : ∀ t ∈ tuples, ∃ d : Dep, t.2.2.1 = d.name)
    (hr : ∀ t ∈ tuples, t.2.2.1 ≠ c!"ROOT") : GoldSentence.read tuples = .ok {} := by
  unfold GoldSentence.read
  rcases rawRoot_cases tuples 0 with ⟨h1, _, _⟩ | ⟨r, h1, t, ht, he⟩ | ⟨h1, t, ht, hn⟩
  · rw [h1]; rfl
  · exact absurd he (hr t ht)
  · obtain ⟨d, hd⟩ := hd t ht
    exact absurd hd (hn d)

example : ∃ g, GoldSentence.read [(c!"I", c!"PRON", c!"SUBJ", 1), (c!"eat", c!"VERB", c!"ROOT", -1),
    (c!".", c!"PUNCT", c!"NODEP", -1)] = .ok g ∧ g.tokens = [c!"I", c!"eat", c!"."] ∧ g.sent.tags = [.PRON, .VERB, .PUNCT] :=
  ⟨_, rfl, by decide, by decide⟩
example : GoldSentence.read [(c!"I", c!"PRONOUN", c!"ROOT", -1)] |>.toOption |>.isNone := by decide
/-- Neither the unknown tag nor the missing root is noticed. -/
example : GoldSentence.read [(c!"Hello", c!"GREETING", c!"NODEP", -1)] = .ok {} :=
  C89_no_root_false _ (by simp; exact ⟨.NODEP, rfl⟩) (by simp)

/-! ### C90 -/

/-- The tuples that are kept: all or, without a `ROOT`, none. -/
def kept (l : List WordTuple) : List WordTuple := if l.any (fun t => t.2.2.1 = .ROOT) then l else []

/-- No token with a parent label is its own parent. -/
def NoSelfParent (l : List WordTuple) : Prop :=
  ∀ (k : Nat) t, l[k]? = some t → t.2.2.1 ≠ .ROOT → t.2.2.1 ≠ .NODEP → t.2.2.2 ≠ k

/-- The names given to the reader. -/
def names (l : List WordTuple) : List RawTuple := l.map fun t => (t.1, t.2.1.name, t.2.2.1.name, t.2.2.2)

theorem read_kept {l : List WordTuple} (h : NoSelfParent l) : ∃ g, GoldSentence.read (names l) = .ok g ∧
    g.tokens = (kept l).map (·.1) ∧ g.sent.tags = (kept l).map (·.2.1) ∧ g.sent.deps = (kept l).map (·.2.2.1) ∧
    ∃ ts, g.transitions = .ok ts ∧ (∀ x ∈ ts, x.1 < (kept l).length ∧ x.2.1 < (kept l).length) ∧
      (ts = [] ↔ (kept l).countP (fun t => t.2.2.1 ≠ .NODEP) ≤ 1) := by
  have hex : ∃ g, GoldSentence.read (names l) = .ok g := by
    rw [C89_readable]
    unfold names
    refine ⟨?_, fun _ => ⟨?_, ?_⟩⟩
    · intro t ht
      obtain ⟨t', _, rfl⟩ := List.mem_map.mp ht
      exact ⟨_, rfl⟩
    · intro t ht
      obtain ⟨t', _, rfl⟩ := List.mem_map.mp ht
      exact ⟨_, rfl⟩
    · intro k t hk hl
      rw [List.getElem?_map, Option.map_eq_some_iff] at hk
      obtain ⟨t', hk, rfl⟩ := hk
      have := t'.2.2.1.name_labelled.mp hl
      exact h k t' hk this.1 this.2
  obtain ⟨g, hg⟩ := hex
  have hparts : g.tokens = (kept l).map (·.1) ∧ g.sent.tags = (kept l).map (·.2.1) ∧
      g.sent.deps = (kept l).map (·.2.2.1) := by
    by_cases hr : ∃ t ∈ l, t.2.2.1 = Dep.ROOT
    · obtain ⟨h1, h2, h3, -⟩ := C89_read_partial l hr g hg
      have : kept l = l := by
        unfold kept
        rw [if_pos (by simpa using hr)]
      rw [this]
      exact ⟨h1, h2, h3⟩
    · have hk : kept l = [] := by
        unfold kept
        rw [if_neg (by simpa using hr)]
      have := C89_no_root_false (names l) (by
        intro t ht
        obtain ⟨t', _, rfl⟩ := List.mem_map.mp ht
        exact ⟨_, rfl⟩) (by
        intro t ht he
        obtain ⟨t', ht', rfl⟩ := List.mem_map.mp ht
        refine hr ⟨t', ht', ?_⟩
        have : ∀ d : Dep, d.name = c!"ROOT" → d = .ROOT := by intro d; cases d <;> decide
        exact this _ he)
      rw [this] at hg
      cases hg
      rw [hk]
      exact ⟨rfl, rfl, rfl⟩
  obtain ⟨h1, h2, h3⟩ := hparts
  have hlen : g.tokens.length = g.sent.deps.length := by rw [h1, h3]; simp
  have hts : ∃ ts, g.sent.transitions (2 * g.tokens.length) = .ok (some ts) := by
    have hn : ∃ s, LabelledSentence.new (l.map Prod.snd) = .ok s ∧ g.sent = s := by
      have := read_typed l
      rw [show l.map rawTuple = names l from rfl, hg] at this
      cases hs : LabelledSentence.new (l.map Prod.snd) with
      | error e => rw [hs] at this; cases this
      | ok s =>
        rw [hs] at this
        refine ⟨s, rfl, ?_⟩
        have := Except.ok.inj this
        rw [this]
    obtain ⟨s, hs, he⟩ := hn
    by_cases hr : kept l = []
    · have hv : g.sent.validIdxs = [] := by
        unfold LabelledSentence.validIdxs
        rw [h3, hr]; rfl
      unfold LabelledSentence.transitions
      rw [hv]
      exact ⟨[], rfl⟩
    · have hk : kept l = l := by
        unfold kept at hr ⊢
        split
        · rfl
        · rename_i hc
          rw [if_neg hc] at hr
          exact absurd rfl hr
      obtain ⟨ts, ht⟩ := C47_oracle_terminates _ s hs
      rw [he, h1, hk]
      exact ⟨ts, by simpa using ht⟩
  obtain ⟨ts, hts⟩ := hts
  obtain ⟨h4, h5⟩ := transitions_spec hts
  refine ⟨g, hg, h1, h2, h3, ts, ?_, ?_, ?_⟩
  · unfold GoldSentence.transitions
    rw [hts]; rfl
  · have hlt : ∀ i ∈ g.sent.validIdxs, i < (kept l).length := by
      intro i hi
      obtain ⟨d, hd, -⟩ := (validIdxs_spec _ i).mp hi
      have := (List.getElem?_eq_some_iff.mp hd).1
      rw [h3] at this
      simpa using this
    intro x hx
    exact ⟨hlt _ (h4 x hx).1, hlt _ (h4 x hx).2⟩
  · rw [h5, validIdxs_length, h3, List.countP_map]
    rfl

variable {α : Type} [Zero α] {code : Char → Nat} {vec : Str → List α} {D : Nat}

theorem vectorize_spec (hv : ∀ w, (vec w).length = D) {ws : List Str} (h : ws.length ≤ 50) :
    vectorizeSentence code vec ws = .ok (ws.length + 2, charMatrix code ws, vecMatrix D vec ws) := by
  rw [vectorizeSentence_ok code vec D hv ws h]
  simp [charMatrix, vecMatrix, padTo, sentRows]

theorem tagIds_spec {tags : List Tag} (h : tags.length ≤ 50) : tagIds tags = .ok (labelRow (tags.map Tag.code)) := by
  unfold tagIds labelRow
  exact padArray_ok _ _ (by simp [paddedSentLength, maxSentLength]; omega)

theorem depIds_spec {deps : List Dep} (h : deps.length ≤ 50) : depIds deps = .ok (labelRow (deps.map Dep.code)) := by
  unfold depIds labelRow
  exact padArray_ok _ _ (by simp [paddedSentLength, maxSentLength]; omega)

/-- Sentences are read, turned into rows, shuffled and transposed. -/
theorem extract_rows {f : GoldSentence → Except PyErr (List (Mat α))} {fs : List (List WordTuple → Mat α)}
    {shuffle : Shuffle α} (hs : ∀ l, (shuffle l).Perm l) {lists : List (List WordTuple)} (hne : lists ≠ [])
    (hf : ∀ l ∈ lists, ∃ g, GoldSentence.read (names l) = .ok g ∧ f g = .ok (fs.map fun c => c l)) :
    ∃ order : List (List WordTuple), order.Perm lists ∧ (do
      let sents ← (lists.map names).mapM GoldSentence.read
      let samples ← sents.mapM f
      return zipStar (shuffle samples)) = .ok (fs.map fun c => order.map c) := by
  have hch : ∀ l, ∃ g, l ∈ lists → GoldSentence.read (names l) = .ok g ∧ f g = .ok (fs.map fun c => c l) := by
    intro l
    by_cases h : l ∈ lists
    · obtain ⟨g, hg⟩ := hf l h
      exact ⟨g, fun _ => hg⟩
    · exact ⟨{}, fun h' => absurd h' h⟩
  choose G hG using hch
  have h1 : (lists.map names).mapM GoldSentence.read = .ok (lists.map G) := by
    rw [List.mapM_map]
    exact mapM_ok_of fun l hl => (hG l hl).1
  have h2 : (lists.map G).mapM f = .ok (lists.map fun l => fs.map fun c => c l) := by
    rw [List.mapM_map]
    exact mapM_ok_of fun l hl => (hG l hl).2
  obtain ⟨order, ho, he⟩ := perm_of_map (hs (lists.map fun l => fs.map fun c => c l)) lists rfl
  refine ⟨order, ho, ?_⟩
  have hne' : order ≠ [] := by
    rintro rfl
    exact hne (List.nil_perm.mp ho)
  simp only [h1, h2, bind, Except.bind, pure, Except.pure]
  rw [he, zipStar_columns order hne' fs]

/-- **C90.** The training data of the tagger: in some order of the sentences, one row per sentence in each of the three
columns, with the characters, vectors and tags of that sentence. -/
theorem C90_ptags (hv : ∀ w, (vec w).length = D) (shuffle : Shuffle α) (hs : ∀ l, (shuffle l).Perm l)
    (lists : List (List WordTuple)) (hne : lists ≠ []) (hl : ∀ l ∈ lists, NoSelfParent l ∧ (kept l).length ≤ 50) :
    ∃ order : List (List WordTuple), order.Perm lists ∧
      extractPtags code vec shuffle (lists.map names) = .ok
        [order.map fun l => .chars (charMatrix code ((kept l).map (·.1))),
         order.map fun l => .vecs (vecMatrix D vec ((kept l).map (·.1))),
         order.map fun l => .ids (labelRow ((kept l).map (·.2.1.code)))] := by
  refine extract_rows (f := ptagsMats code vec) (fs := [fun l => .chars (charMatrix code ((kept l).map (·.1))),
    fun l => .vecs (vecMatrix D vec ((kept l).map (·.1))), fun l => .ids (labelRow ((kept l).map (·.2.1.code)))]) hs hne ?_
  intro l hm
  obtain ⟨h1, h2⟩ := hl l hm
  obtain ⟨g, hg, ht, htg, -, -⟩ := read_kept h1
  refine ⟨g, hg, ?_⟩
  unfold ptagsMats
  rw [ht, htg, vectorize_spec hv (by simpa using h2), tagIds_spec (by simpa using h2)]
  simp [bind, Except.bind, pure, Except.pure, Function.comp_def]

/-- **C90.** The training data of the dependency labeller: tags, characters, vectors and dependencies, one row per
sentence. -/
theorem C90_pdeps (hv : ∀ w, (vec w).length = D) (shuffle : Shuffle α) (hs : ∀ l, (shuffle l).Perm l)
    (lists : List (List WordTuple)) (hne : lists ≠ []) (hl : ∀ l ∈ lists, NoSelfParent l ∧ (kept l).length ≤ 50) :
    ∃ order : List (List WordTuple), order.Perm lists ∧
      extractPdeps code vec shuffle (lists.map names) = .ok
        [order.map fun l => .ids (labelRow ((kept l).map (·.2.1.code))),
         order.map fun l => .chars (charMatrix code ((kept l).map (·.1))),
         order.map fun l => .vecs (vecMatrix D vec ((kept l).map (·.1))),
         order.map fun l => .ids (labelRow ((kept l).map (·.2.2.1.code)))] := by
  refine extract_rows (f := pdepsMats code vec) (fs := [fun l => .ids (labelRow ((kept l).map (·.2.1.code))),
    fun l => .chars (charMatrix code ((kept l).map (·.1))), fun l => .vecs (vecMatrix D vec ((kept l).map (·.1))),
    fun l => .ids (labelRow ((kept l).map (·.2.2.1.code)))]) hs hne ?_
  intro l hm
  obtain ⟨h1, h2⟩ := hl l hm
  obtain ⟨g, hg, ht, htg, hd, -⟩ := read_kept h1
  refine ⟨g, hg, ?_⟩
  unfold pdepsMats
  rw [ht, htg, hd, vectorize_spec hv (by simpa using h2), tagIds_spec (by simpa using h2), depIds_spec (by simpa using h2)]
  simp [bind, Except.bind, pure, Except.pure, Function.comp_def]

/-- **C90.** The training data of the parser: in some order of all transitions of all sentences, one row per transition in
each of the seven columns: the labels, characters and vectors of its sentence, the masks of the rows of its two tokens and
its code. -/
theorem C90_trans (hv : ∀ w, (vec w).length = D) (shuffle : Shuffle α) (hs : ∀ l, (shuffle l).Perm l)
    (lists : List (List WordTuple)) (hl : ∀ l ∈ lists, NoSelfParent l ∧ (kept l).length ≤ 50) :
    ∃ oracle : List WordTuple → List (Nat × Nat × Trans),
      (∀ l ∈ lists, ∃ g, GoldSentence.read (names l) = .ok g ∧ g.transitions = .ok (oracle l)) ∧
      ∃ order : List (List WordTuple × Nat × Nat × Trans),
        order.Perm (lists.flatMap fun l => (oracle l).map fun x => (l, x)) ∧
        extractTrans code vec shuffle (lists.map names) = .ok (if order = [] then [] else
          [order.map fun x => .ids (labelRow ((kept x.1).map (·.2.1.code))),
           order.map fun x => .ids (labelRow ((kept x.1).map (·.2.2.1.code))),
           order.map fun x => .chars (charMatrix code ((kept x.1).map (·.1))),
           order.map fun x => .vecs (vecMatrix D vec ((kept x.1).map (·.1))),
           order.map fun x => .mask (oneHot 52 (x.2.1 + 1)),
           order.map fun x => .mask (oneHot 52 (x.2.2.1 + 1)),
           order.map fun x => .code x.2.2.2.code]) := by
  have hch : ∀ l, ∃ gt : GoldSentence × List (Nat × Nat × Trans), l ∈ lists → GoldSentence.read (names l) = .ok gt.1 ∧
      gt.1.tokens = (kept l).map (·.1) ∧ gt.1.sent.tags = (kept l).map (·.2.1) ∧
      gt.1.sent.deps = (kept l).map (·.2.2.1) ∧ gt.1.transitions = .ok gt.2 ∧
      (∀ x ∈ gt.2, x.1 < (kept l).length ∧ x.2.1 < (kept l).length) := by
    intro l
    by_cases h : l ∈ lists
    · obtain ⟨g, h1, h2, h3, h4, ts, h5, h6, -⟩ := read_kept (hl l h).1
      exact ⟨(g, ts), fun _ => ⟨h1, h2, h3, h4, h5, h6⟩⟩
    · exact ⟨({}, []), fun h' => absurd h' h⟩
  choose G hG using hch
  let fs : List (List WordTuple × Nat × Nat × Trans → Mat α) :=
    [fun x => .ids (labelRow ((kept x.1).map (·.2.1.code))),
     fun x => .ids (labelRow ((kept x.1).map (·.2.2.1.code))),
     fun x => .chars (charMatrix code ((kept x.1).map (·.1))),
     fun x => .vecs (vecMatrix D vec ((kept x.1).map (·.1))),
     fun x => .mask (oneHot 52 (x.2.1 + 1)),
     fun x => .mask (oneHot 52 (x.2.2.1 + 1)),
     fun x => .code x.2.2.2.code]
  refine ⟨fun l => (G l).2, fun l hm => ⟨(G l).1, (hG l hm).1, (hG l hm).2.2.2.2.1⟩, ?_⟩
  have h1 : (lists.map names).mapM GoldSentence.read = .ok (lists.map fun l => (G l).1) := by
    rw [List.mapM_map]
    exact mapM_ok_of fun l hm => (hG l hm).1
  have h2 : (lists.map fun l => (G l).1).mapM (sentTransMats code vec) =
      .ok (lists.map fun l => (G l).2.map fun x => fs.map fun c => c (l, x)) := by
    rw [List.mapM_map]
    refine mapM_ok_of fun l hm => ?_
    obtain ⟨-, ht, htg, hd, htr, hidx⟩ := hG l hm
    have hn := (hl l hm).2
    show sentTransMats code vec (G l).1 = _
    unfold sentTransMats
    simp only [htr, bind, Except.bind]
    refine mapM_ok_of fun x hx => ?_
    obtain ⟨hi, hj⟩ := hidx x hx
    have hmask := (C49_masks (x.1 + 1) (x.2.1 + 1)).1 (by omega) (by omega)
    unfold transMats transSample
    rw [ht, htg, hd, vectorize_spec hv (by simpa using hn), tagIds_spec (by simpa using hn),
      depIds_spec (by simpa using hn), hmask]
    simp [bind, Except.bind, pure, Except.pure, fs, Function.comp_def]
  have h3 : (lists.map fun l => (G l).2.map fun x => fs.map fun c => c (l, x)).flatten =
      (lists.flatMap fun l => (G l).2.map fun x => (l, x)).map fun y => fs.map fun c => c y := by
    rw [List.map_flatMap, List.flatMap_def]
    simp only [List.map_map]
    rfl
  obtain ⟨order, ho, he⟩ := perm_of_map
    (hs ((lists.flatMap fun l => (G l).2.map fun x => (l, x)).map fun y => fs.map fun c => c y)) _ rfl
  refine ⟨order, ho, ?_⟩
  unfold extractTrans
  simp only [h1, h2, bind, Except.bind, pure, Except.pure]
  rw [h3, he]
  split
  · rename_i hnil
    rw [hnil]; rfl
  · rename_i hnil
    rw [zipStar_columns order hnil fs]
    rfl

/-- **C90.** Without sentences there is no data: not even empty columns. -/
theorem C90_empty (shuffle : Shuffle α) (hs : ∀ l, (shuffle l).Perm l) : extractPtags code vec shuffle [] = .ok [] ∧
    extractPdeps code vec shuffle [] = .ok [] ∧ extractTrans code vec shuffle [] = .ok [] := by
  have : shuffle [] = [] := List.perm_nil.mp (hs [])
  unfold extractPtags extractPdeps extractTrans
  simp [bind, Except.bind, pure, Except.pure, this, zipStar]

theorem extract_error {β : Type} {f : GoldSentence → Except PyErr β} {k : List β → List (List (Mat α))}
    {lists : List (List WordTuple)} {bad : List WordTuple → Prop}
    (hf : ∀ l ∈ lists, ∃ g, GoldSentence.read (names l) = .ok g ∧
      (bad l ∧ f g = .error .sentenceTooLong ∨ ¬ bad l ∧ ∃ y, f g = .ok y)) (e : PyErr) :
    (do
      let sents ← (lists.map names).mapM GoldSentence.read
      let samples ← sents.mapM f
      return k samples) = .error e ↔ e = .sentenceTooLong ∧ ∃ l ∈ lists, bad l := by
  have hch : ∀ l, ∃ g, l ∈ lists → GoldSentence.read (names l) = .ok g ∧
      (bad l ∧ f g = .error .sentenceTooLong ∨ ¬ bad l ∧ ∃ y, f g = .ok y) := by
    intro l
    by_cases h : l ∈ lists
    · obtain ⟨g, hg⟩ := hf l h
      exact ⟨g, fun _ => hg⟩
    · exact ⟨{}, fun h' => absurd h' h⟩
  choose G hG using hch
  have h1 : (lists.map names).mapM GoldSentence.read = .ok (lists.map G) := by
    rw [List.mapM_map]
    exact mapM_ok_of fun l hl => (hG l hl).1
  simp only [h1, bind, Except.bind, pure, Except.pure]
  by_cases hb : ∃ l ∈ lists, bad l
  · have : (lists.map G).mapM f = .error .sentenceTooLong := by
      refine mapM_error_of ?_ ?_
      · intro g hg
        obtain ⟨l, hl, rfl⟩ := List.mem_map.mp hg
        rcases (hG l hl).2 with ⟨-, h⟩ | ⟨-, h⟩
        · exact Or.inr h
        · exact Or.inl h
      · obtain ⟨l, hl, hbad⟩ := hb
        refine ⟨G l, List.mem_map_of_mem hl, ?_⟩
        rcases (hG l hl).2 with ⟨-, h⟩ | ⟨hn, -⟩
        · exact h
        · exact absurd hbad hn
    rw [this]
    simp only [Except.error.injEq]
    exact ⟨fun h => ⟨h.symm, hb⟩, fun h => h.1.symm⟩
  · have : ∃ ys, (lists.map G).mapM f = .ok ys := by
      rw [List.mapM_map]
      have hall : ∀ l ∈ lists, ∃ y, (f ∘ G) l = .ok y := by
        intro l hl
        rcases (hG l hl).2 with ⟨hn, -⟩ | ⟨-, y, hy⟩
        · exact absurd ⟨l, hl, hn⟩ hb
        · exact ⟨y, hy⟩
      obtain ⟨ys, hys, -⟩ := mapM_ok_of_forall hall
      exact ⟨ys, hys⟩
    obtain ⟨ys, hys⟩ := this
    rw [hys]
    constructor
    · intro h; cases h
    · rintro ⟨-, h⟩; exact absurd h hb

/-- **C90.** Extraction for the tagger and the labeller raises `SentenceTooLongError` iff some sentence with a root has
more than 50 tokens, and nothing else. -/
theorem C90_too_long (hv : ∀ w, (vec w).length = D) (shuffle : Shuffle α) (lists : List (List WordTuple))
    (hl : ∀ l ∈ lists, NoSelfParent l) (e : PyErr) :
    (extractPtags code vec shuffle (lists.map names) = .error e ↔
      e = .sentenceTooLong ∧ ∃ l ∈ lists, 50 < (kept l).length) ∧
    (extractPdeps code vec shuffle (lists.map names) = .error e ↔
      e = .sentenceTooLong ∧ ∃ l ∈ lists, 50 < (kept l).length) := by
  have hlong : ∀ ws : List Str, 50 < ws.length → vectorizeSentence code vec ws = .error .sentenceTooLong :=
    fun ws h => (C49_too_long code vec D hv ws _).mpr ⟨h, rfl⟩
  constructor
  · refine extract_error (f := ptagsMats code vec) (k := fun s => zipStar (shuffle s)) ?_ e
    intro l hm
    obtain ⟨g, hg, ht, htg, -, -⟩ := read_kept (hl l hm)
    refine ⟨g, hg, ?_⟩
    unfold ptagsMats
    rw [ht, htg]
    by_cases h : 50 < (kept l).length
    · rw [hlong _ (by simpa using h)]
      exact Or.inl ⟨h, rfl⟩
    · rw [vectorize_spec hv (by simp; omega), tagIds_spec (by simp; omega)]
      exact Or.inr ⟨h, _, rfl⟩
  · refine extract_error (f := pdepsMats code vec) (k := fun s => zipStar (shuffle s)) ?_ e
    intro l hm
    obtain ⟨g, hg, ht, htg, hd, -⟩ := read_kept (hl l hm)
    refine ⟨g, hg, ?_⟩
    unfold pdepsMats
    rw [ht, htg, hd]
    by_cases h : 50 < (kept l).length
    · rw [hlong _ (by simpa using h)]
      exact Or.inl ⟨h, rfl⟩
    · rw [vectorize_spec hv (by simp; omega), tagIds_spec (by simp; omega), depIds_spec (by simp; omega)]
      exact Or.inr ⟨h, _, rfl⟩

/-- **C90.** Extraction for the parser raises it only for those with at least two tokens in the tree: others have no
transition. -/
theorem C90_trans_too_long (hv : ∀ w, (vec w).length = D) (shuffle : Shuffle α) (lists : List (List WordTuple))
    (hl : ∀ l ∈ lists, NoSelfParent l) (e : PyErr) :
    extractTrans code vec shuffle (lists.map names) = .error e ↔
      e = .sentenceTooLong ∧ ∃ l ∈ lists, 50 < (kept l).length ∧ 2 ≤ (kept l).countP (fun t => t.2.2.1 ≠ .NODEP) := by
  have hlong : ∀ ws : List Str, 50 < ws.length → vectorizeSentence code vec ws = .error .sentenceTooLong :=
    fun ws h => (C49_too_long code vec D hv ws _).mpr ⟨h, rfl⟩
  refine extract_error (f := sentTransMats code vec) (k := fun s => zipStar (shuffle s.flatten)) ?_ e
  intro l hm
  obtain ⟨g, hg, ht, htg, hd, ts, htr, hidx, hts⟩ := read_kept (hl l hm)
  refine ⟨g, hg, ?_⟩
  unfold sentTransMats
  simp only [htr, bind, Except.bind]
  by_cases h : 50 < (kept l).length
  · have herr : ∀ x, transMats code vec g x = .error .sentenceTooLong := by
      intro x
      unfold transMats transSample
      rw [ht, hlong _ (by simpa using h)]
      rfl
    by_cases h2 : 2 ≤ (kept l).countP (fun t => t.2.2.1 ≠ .NODEP)
    · left
      refine ⟨⟨h, h2⟩, ?_⟩
      cases ts with
      | nil => have := hts.mp rfl; omega
      | cons x ts => rw [List.mapM_cons, herr]; rfl
    · right
      refine ⟨fun hh => h2 hh.2, [], ?_⟩
      rw [hts.mpr (by omega)]
      rfl
  · right
    refine ⟨fun hh => h hh.1, ?_⟩
    suffices h' : ∀ x ∈ ts, ∃ y, transMats code vec g x = .ok y by
      obtain ⟨ys, hys, -⟩ := mapM_ok_of_forall h'
      exact ⟨ys, hys⟩
    intro x hx
    obtain ⟨hi, hj⟩ := hidx x hx
    have hmask := (C49_masks (x.1 + 1) (x.2.1 + 1)).1 (by omega) (by omega)
    unfold transMats transSample
    rw [ht, htg, hd, vectorize_spec hv (by simp; omega), tagIds_spec (by simp; omega), depIds_spec (by simp; omega), hmask]
    exact ⟨_, rfl⟩

/-- Two sentences that meet the hypotheses, one of them without root. -/
def sampleSentences : List (List WordTuple) :=
  [[(c!"I", .PRON, .SUBJ, 1), (c!"eat", .VERB, .ROOT, -1), (c!"apples", .NOUN, .OBJ, 1), (c!".", .PUNCT, .NODEP, -1)],
   [(c!"Hello", .EXPR, .NODEP, -1)]]

example : ∀ l ∈ sampleSentences, NoSelfParent l ∧ (kept l).length ≤ 50 := by
  have : sampleSentences.all (fun l => l.zipIdx.all fun t => t.1.2.2.2 ≠ t.2) = true := by decide
  intro l hl
  refine ⟨?_, ?_⟩
  · intro k t hk _ _
    have h1 := List.all_eq_true.mp (List.all_eq_true.mp this l hl) (t, k) (List.mem_zipIdx_iff_getElem?.mpr hk)
    simpa using h1
  · have h2 : sampleSentences.all (fun l => decide ((kept l).length ≤ 50)) = true := by decide
    simpa using List.all_eq_true.mp h2 l hl

/-- Two transitions: the row of the first has code 0 (`LEFT`), the other 1 (`RIGHT`). -/
example : ((extractTrans (α := Nat) Char.toNat (fun w => [w.length]) id (sampleSentences.map names)).map
    fun cols => (cols.length, cols.getLast?)) = .ok (7, some [.code 0, .code 1]) := by decide +kernel

/-- The sentence without root gives a row of padding. -/
example : ((extractPtags (α := Nat) Char.toNat (fun w => [w.length]) List.reverse (sampleSentences.map names)).map
    fun cols => cols.getLast?) = .ok (some [.ids (List.replicate 52 0),
      .ids ([0, 11, 14, 8, 13] ++ List.replicate 47 0)]) := by decide +kernel

end Props
