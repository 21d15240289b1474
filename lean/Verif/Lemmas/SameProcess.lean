import Verif.Lemmas.SameTree
import Verif.Model.Pipeline

/-! The steps of the pipeline do not tell apart trees built from the same arcs in different orders. -/

namespace Model
open Py Spec

section
variable {t t' : Tree Dep Ref} (S : SameTree t t')
include S

theorem fixNode_same (adjs nouns : List Str) : fixNode adjs nouns t = fixNode adjs nouns t' := by
  funext h r
  unfold fixNode fixTag
  simp only [S.nil_iff, S.parent]

theorem fixAll_same (adjs nouns : List Str) (h : Heap) (nodes : List Ref) :
    fixAll adjs nouns t h nodes = fixAll adjs nouns t' h nodes := by
  unfold fixAll
  rw [fixNode_same S]

theorem chunker_same (h : Heap) (nodes : List Ref) : chunker h t nodes = chunker h t' nodes := by
  have : compoundParent h t = compoundParent h t' := by
    funext r
    unfold compoundParent
    rw [S.parent r]
    simp only [S.hasChildViaSet]
  have : compoundStep h t = compoundStep h t' := by
    funext acc r
    unfold compoundStep
    rw [this]
  unfold chunker compounds
  rw [this]

theorem registerSubjs_same (verb subj : Ref) (h : Heap) : registerSubjs t verb subj h = registerSubjs t' verb subj h := by
  unfold registerSubjs
  simp only [S.hasChildVia]

theorem registerObjs_same (verb obj : Ref) (h : Heap) : registerObjs t verb obj h = registerObjs t' verb obj h := by
  unfold registerObjs
  have : (fun v => decide (t.children v = [])) = fun v => decide (t'.children v = []) := by
    funext v
    rw [decide_eq_decide, S.nil_iff]
  rw [this]

theorem registerPropsViaCopula_same (subj copula prop : Ref) (h : Heap) :
    registerPropsViaCopula t subj copula prop h = registerPropsViaCopula t' subj copula prop h := by
  unfold registerPropsViaCopula
  simp only [S.hasChildViaSet]

theorem registerIprops_same (verb iprop : Ref) (h : Heap) : registerIprops t verb iprop h = registerIprops t' verb iprop h := by
  unfold registerIprops
  rw [S.childVia .OBJ (by decide), S.childVia .SUBJ (by decide)]

theorem registerAgents_same (d c m : Ref) (h : Heap) : registerAgents t d c m h = registerAgents t' d c m h := by
  unfold registerAgents
  rw [S.parent]

theorem resolveRelativePron_same (h : Heap) (verb pron : Ref) :
    resolveRelativePron t h verb pron = resolveRelativePron t' h verb pron := by
  unfold resolveRelativePron
  rw [S.parent]
  simp only [S.hasChildViaSet]

theorem resolveObjReflexivePron_same (h : Heap) (verb pron : Ref) :
    resolveObjReflexivePron t h verb pron = resolveObjReflexivePron t' h verb pron := by
  unfold resolveObjReflexivePron
  rw [S.childVia .SUBJ (by decide)]

theorem resolveSubjReflexivePron_same (h : Heap) (verb pron : Ref) :
    resolveSubjReflexivePron t h verb pron = resolveSubjReflexivePron t' h verb pron := by
  unfold resolveSubjReflexivePron
  rw [S.parent]
  simp only [S.childVia .SUBJ (by decide)]

theorem analyzeParent_same (node : Ref) (dep : Dep) (parent : Ref) (h : Heap) :
    analyzeParent t node dep parent h = analyzeParent t' node dep parent h := by
  unfold analyzeParent
  simp only [resolveRelativePron_same S, resolveSubjReflexivePron_same S, resolveObjReflexivePron_same S,
    registerSubjs_same S, registerObjs_same S, registerPropsViaCopula_same S, registerIprops_same S,
    S.childVia .SUBJ (by decide)]

theorem parentStep_same (node : Ref) (h : Heap) : parentStep t node h = parentStep t' node h := by
  unfold parentStep
  rw [S.parent]
  simp only [analyzeParent_same S]

theorem analyzeMark_same (node parent : Ref) (mark : Option Ref) (h : Heap) :
    analyzeMark t node parent mark h = analyzeMark t' node parent mark h := by
  unfold analyzeMark analyzeNakedAdj
  simp only [registerAgents_same S, S.childVia .PROP (by decide)]

theorem directStep_same : directStep t = directStep t' := by
  funext s node
  obtain ⟨c, c', e1, e2, hc⟩ := S.childAny .CMARK node
  obtain ⟨i, i', e3, e4, hi⟩ := S.childAny .IMARK node
  have hc' : (c ≠ none) ↔ (c' ≠ none) := not_congr hc
  unfold directStep analyzeCpl
  simp only [parentStep_same S, S.childVia .MARK (by decide), e1, e2, e3, e4, S.any, S.parent, analyzeMark_same S, bind,
    Except.bind]
  simp only [hc, hi, ne_eq]

theorem longStep_same (naked marked : List Ref) : longStep t naked marked = longStep t' naked marked := by
  funext h node
  unfold longStep
  simp only [S.parent, S.hasChildVia, S.childVia .SUBJ (by decide), registerSubjs_same S, registerObjs_same S]

theorem findArgs_same (nodes : List Ref) (h : Heap) : findArgs t nodes h = findArgs t' nodes h := by
  have : aggregStep t = aggregStep t' := by
    funext h r
    unfold aggregStep
    rw [S.via .AND (by decide), S.via .OR (by decide)]
  unfold findArgs
  rw [this, directStep_same S]
  simp only [longStep_same S]

end

/-- The whole logical process on trees with the same arcs. -/
theorem process_same {t t' : Tree Dep Nat} {hist hist' : List Arc} {root : Nat} (hb : buildTree root hist = .ok t)
    (hb' : buildTree root hist' = .ok t') (H : SameArcs hist hist') (c : Logic) (tokens : List Str) (tags : List Tag)
    (chunk : Bool) : c.process (tokens, tags, some t, chunk) = c.process (tokens, tags, some t', chunk) := by
  unfold Logic.process
  simp only [bind, Except.bind]
  rcases nodify_same hb hb' H c.lower tokens tags with ⟨h, d, nt, nt', e, e', S⟩ | ⟨e, h1, h2⟩
  · simp only [e, e', fixAll_same S, chunker_same S, findArgs_same S]
  · simp only [h1, h2]

end Model
