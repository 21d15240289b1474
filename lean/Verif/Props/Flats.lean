import Verif.Lemmas.Exact
import Verif.Props.Grounds

/-! C128: flat expressions count as one word. -/

namespace Props
open Py Model Spec

variable {ck : Bool} {c : Logic} {tokens tokens₀ : List Str} {tg tg₀ : List Tag} {t t₀ : Tree Dep Nat} {ts : List STuple}
  {width : Nat → Nat}

/-- **C128.** "New York City bakes cakes": subject, verb and object are reported by their words, where the word of a flat expression
is made of the texts of all its tokens, in order and with a blank between each two, and its tag is that of its last token. -/
theorem C128_transitive (H : Reported ck c tokens₀ tg₀ t₀ ts) (F : OneWord width t₀ tokens₀ tg₀ t tokens tg)
    {v s s' o o' : Nat} {w : Str} {a₀ a b₀ b : Argument}
    (hv : Main c tokens tg t v) (hw : SaidBy c tokens tg t v w) (hs : Stands ck c tokens tg t .SUBJ v s s' a₀ a)
    (ho : Stands ck c tokens tg t .OBJ v o o' b₀ b)
    (hrel : (∃ n, (.CPL, v) ∈ t.children n) → a₀.word ∉ relatives ∧ b₀.word ∉ relatives) (hrefl : b₀.word ∉ reflexives) :
    STuple.mk [a, ⟨w, c!"T", affirmed [positive t s', positive t v, positive t o']⟩, b] ∈ ts :=
  C105_transitive ⟨_, _, _, _, H, F⟩ hv hw hs ho hrel hrefl

/-- **C128.** Conversely every tuple of the sentence is stated by the sentence in which flat expressions are one word: no tuple is
made of a part of a flat expression. -/
theorem C128_stated (H : Reported ck c tokens₀ tg₀ t₀ ts) (F : OneWord width t₀ tokens₀ tg₀ t tokens tg) (T : NeatParse t) :
    ∀ x ∈ ts, Stated ck c tokens tg t x.args :=
  C127_stated ⟨_, _, _, _, H, F⟩ T

/-- **C128.** The sentence and the sentence in which flat expressions are one word have the same tuples. -/
theorem C128_same {ts' : List STuple} (H : Reported ck c tokens₀ tg₀ t₀ ts) (F : OneWord width t₀ tokens₀ tg₀ t tokens tg)
    (H' : Reported ck c tokens tg t ts') (T : NeatParse t) (x : STuple) : x ∈ ts ↔ x ∈ ts' := by
  obtain ⟨h, h', nt, nodes, pos, L, A, E⟩ := Reports.linked ⟨_, _, _, _, H, F⟩
  obtain ⟨k, k', mt, modes, qos, M, B, D⟩ := H'.reports.linked
  rw [E, D]
  exact ((Moved.refl t tokens tg).alike T T L.label L.label).said_iff L M T A B

/-! ### Examples -/

/-- "New York City baked foxes." -/
def city : Demo where
  tokens := [c!"New", c!"York", c!"City", c!"baked", c!"foxes"]
  tags := [.PROPN, .PROPN, .PROPN, .VERB, .NOUN]
  deps := [.SUBJ, .FLAT, .FLAT, .ROOT, .OBJ]
  trans := [(0, 1, .RIGHT), (1, 2, .RIGHT), (2, 3, .REDUCE), (1, 3, .REDUCE), (0, 3, .LEFT), (3, 4, .RIGHT)]
  root := 3
  arcs := [(.FLAT, 0, 1), (.FLAT, 1, 2), (.SUBJ, 3, 0), (.OBJ, 3, 4)]

/-- The same sentence with a subject of one token. -/
def oneCity : Demo where
  tokens := [c!"New York City", c!"York", c!"City", c!"baked", c!"foxes"]
  tags := [.PROPN, .PROPN, .PROPN, .VERB, .NOUN]
  deps := [.SUBJ, .NODEP, .NODEP, .ROOT, .OBJ]
  trans := [(0, 3, .LEFT), (3, 4, .RIGHT)]
  root := 3
  arcs := [(.SUBJ, 3, 0), (.OBJ, 3, 4)]

theorem city_parsed : city.Parsed := by decide +kernel
theorem oneCity_parsed : oneCity.Parsed := by decide +kernel

theorem city_tuples : ∀ ck, (city.tuples ck).map (fun x => x.flatten true) =
    [c!"PTN(new york city, bake, fox)", c!"NCL(fox, be, baked)"] := by decide +kernel

def cityWidth (i : Nat) : Nat := if i = 0 then 2 else 0

theorem Demo.children {d : Demo} (h : d.Parsed) {k : Nat} (hk : ∀ a ∈ d.arcs, a.2.1 ≠ k) : d.tree.children k = [] :=
  List.eq_nil_iff_forall_not_mem.mpr fun x hx => hk _ ((Demo.mem h x.1 k x.2).mp hx) rfl

theorem city_oneWord : OneWord cityWidth city.tree city.tokens city.tags oneCity.tree oneCity.tokens oneCity.tags := by
  have h := city_parsed
  have h' := oneCity_parsed
  have zero : ∀ i, cityWidth i ≠ 0 → i = 0 := fun i hi => by
    unfold cityWidth at hi
    by_contra k
    exact hi (if_neg k)
  refine ⟨?_, ?_, ?_, ?_, ?_, ?_, ?_⟩
  · intro i hi
    obtain rfl := zero i hi
    refine ⟨?_, ?_, by decide +kernel, ?_, ?_, ?_, ⟨.SUBJ, 3, .inr ((Demo.mem h _ _ _).mpr (by decide)), by decide⟩⟩
    · intro k _ hk x
      rw [Demo.mem h]
      have : k = 0 ∨ k = 1 := by simp [cityWidth] at hk; omega
      rcases this with rfl | rfl <;> simp [city]
    · intro k h1 h2 d x hx
      rw [Demo.mem h] at hx
      have : ∀ a ∈ city.arcs, 0 < a.2.1 → a.2.1 ≤ 0 + cityWidth 0 → a.1 = .FLAT := by decide
      exact this _ hx h1 h2
    · intro k h1 h2 d p hx
      rw [Demo.mem h] at hx
      have : ∀ a ∈ city.arcs, 0 < a.2.2 → a.2.2 ≤ 0 + cityWidth 0 → a.2.1 + 1 = a.2.2 := by decide
      exact this _ hx h1 h2
    · intro d p hx
      rw [Demo.mem h] at hx
      have : ∀ a ∈ city.arcs, a.2.2 = 0 → a.1 ≠ .FLAT ∧ a.1 ≠ .PART := by decide
      exact this _ hx rfl
    · intro x hx
      rw [Demo.mem h] at hx
      have : ∀ a ∈ city.arcs, a.1 ≠ .PART := by decide
      exact this _ hx rfl
  · intro i hi
    obtain rfl := zero i hi
    decide +kernel
  · intro i k h1 h2
    have hi : i = 0 := zero i (by omega)
    subst hi
    have : k = 1 ∨ k = 2 := by simp [cityWidth] at h2; omega
    rcases this with rfl | rfl <;> decide +kernel
  · intro k h1 h2
    have hk : k ≠ 0 := fun e => by subst e; cases h1
    have := h2 0 (by omega)
    simp [cityWidth] at this
    by_cases e : k = 3
    · subst e; decide +kernel
    rw [Demo.children h, Demo.children h']
    · have : ∀ a ∈ oneCity.arcs, ¬ (2 < a.2.1 ∧ a.2.1 ≠ 3) := by decide
      exact fun a ha hk => this a ha (by omega)
    · have : ∀ a ∈ city.arcs, ¬ (2 < a.2.1 ∧ a.2.1 ≠ 3) := by decide
      exact fun a ha hk => this a ha (by omega)
  · intro i hi
    obtain rfl := zero i hi
    decide
  · intro i hi
    have hk : i ≠ 0 := fun e => by subst e; cases hi
    obtain ⟨n, rfl⟩ : ∃ n, i = n + 1 := ⟨i - 1, by omega⟩
    rfl
  · intro i
    match i with
    | 0 => decide
    | n + 1 => rfl

theorem city_called : Called ck demoLogic oneCity.tokens oneCity.tags oneCity.tree 0 ⟨c!"new york city", c!"P", true⟩ :=
  ⟨c!"new york city", .PROPN, c!"new york city", ⟨c!"new york city", .PROPN, none, ⟨c!"New York City", rfl, by decide +kernel⟩, rfl,
    by decide +kernel⟩, rfl, by decide, .propn, rfl, .inl ⟨rfl, .inr (.inl (by decide))⟩, rfl⟩

example : STuple.mk [⟨c!"new york city", c!"P", true⟩, ⟨c!"bake", c!"T", true⟩, ⟨c!"fox", c!"N", true⟩] ∈ city.tuples ck := by
  have h := oneCity_parsed
  have w0 : Word oneCity.tree 0 := Demo.word h (by decide)
  have w3 : Word oneCity.tree 3 := Demo.word h (by decide)
  have w4 : Word oneCity.tree 4 := Demo.word h (by decide)
  have c4 : Called ck demoLogic oneCity.tokens oneCity.tags oneCity.tree 4 ⟨c!"fox", c!"N", true⟩ :=
    Demo.noun h c!"foxes" c!"foxes" _ (some .PLURAL) rfl rfl (by decide +kernel) (by decide +kernel) (by decide)
  have := C128_transitive (Demo.reported city_parsed) city_oneWord (v := 3) (w := c!"bake") (Demo.main h w3 rfl (by decide))
    ⟨c!"bake", [], rfl, ⟨c!"baked", .VERB, some .PAST, ⟨c!"baked", rfl, by decide +kernel⟩, rfl, by decide +kernel⟩,
      Demo.noParts h (by decide), rfl⟩
    ⟨(Demo.mem h _ _ _).mpr (by decide), w0, city_called, Or.inl rfl, w0, city_called⟩
    ⟨(Demo.mem h _ _ _).mpr (by decide), w4, c4, Or.inl rfl, w4, c4⟩ (fun _ => by decide) (by decide)
  rwa [show affirmed [positive oneCity.tree 0, positive oneCity.tree 3, positive oneCity.tree 4] = true by decide +kernel] at this

example : ∀ x ∈ city.tuples ck, Stated ck demoLogic oneCity.tokens oneCity.tags oneCity.tree x.args :=
  C128_stated (Demo.reported city_parsed) city_oneWord (Demo.neat oneCity_parsed (by decide))

example (x : STuple) : x ∈ city.tuples ck ↔ x ∈ oneCity.tuples ck :=
  C128_same (Demo.reported city_parsed) city_oneWord (Demo.reported oneCity_parsed) (Demo.neat oneCity_parsed (by decide)) x

end Props
