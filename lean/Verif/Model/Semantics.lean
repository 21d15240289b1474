import Verif.Model.Node
import Verif.Model.Enums

/-! Model of `scrappybara/semantics` and of `scrappybara/pipeline/{document,sentence}.py`. -/

namespace Model
open Py

/-- Values of `ArgCode`, argument_code.py:8-18; `Argument.__codes`, argument.py:9 -/
def argCodes : List Str :=
  [c!"A", c!"C", c!"L", c!"I", c!"N", c!"O", c!"P", c!"R", c!"S", c!"T", c!"U"]

/-- An `Argument` object, argument.py:6-18 -/
structure Argument where
  word : Str
  code : Str
  isAff : Bool
  deriving DecidableEq, Repr

/-- `Argument(word, code, is_affirmative)`, argument.py:13-18 -/
def Argument.new (word code : Str) (isAff : Bool := true) : Except PyErr Argument :=
  if code ∉ argCodes then .error .argumentValue else .ok { word := word, code := code, isAff := isAff }

/-- `tag`, argument.py:26-33 -/
def Argument.tag (a : Argument) : Str :=
  if a.code ∈ [c!"A", c!"L"] then c!"ADJ" else if a.code ∈ [c!"I", c!"R", c!"T"] then c!"VERB" else c!"NOUN"

/-- `flatten`, argument.py:35-41 -/
def Argument.flatten (a : Argument) (withDecorators : Bool) : Str :=
  join c!" " ((if withDecorators && !a.isAff then [c!"NOT"] else []) ++ [a.word])

/-- `SemanticTuple(*args)`, semantic_tuple.py:4-5 -/
structure STuple where
  args : List Argument
  deriving DecidableEq, Repr

/-- `__len__`, semantic_tuple.py:16-17 -/
def STuple.len (t : STuple) : Nat := t.args.length

/-- `code`, semantic_tuple.py:19-22 -/
def STuple.code (t : STuple) : Str := join [] (t.args.map (·.code))

/-- `flatten`, semantic_tuple.py:24-26 -/
def STuple.flatten (t : STuple) (withDecorators : Bool) : Str :=
  t.code ++ c!"(" ++ join c!", " (t.args.map (·.flatten withDecorators)) ++ c!")"

/-- `arg`, semantic_tuple.py:28-30 -/
def STuple.arg (t : STuple) (i : Int) : Except PyErr Argument := index t.args i

/-- `has_any_arg_with_code`, semantic_tuple.py:32-33 -/
def STuple.hasAnyArgWithCode (t : STuple) (c : Str) : Bool := t.args.any fun a => a.code = c

/-- `_noun_arg_code`, semantic_tuple_extractor.py:10-20 -/
def nounArgCode (n : Node) : Str :=
  if n.tag = .PROPN then c!"P"
  else if n.tag = .PRON then c!"O"
  else if n.tag = .NUM then c!"U"
  else if n.tag = .SYM then c!"S"
  else c!"N"

/-- Truth of `node.active_verb`: neither `None` nor `''`. -/
def Node.active (n : Node) : Option Str :=
  match n.activeVerb with
  | some (c :: w) => some (c :: w)
  | _ => none

/-- `_adj_arg_code`, semantic_tuple_extractor.py:23-27 -/
def adjArgCode (n : Node) : Str := if n.active.isSome then c!"L" else c!"A"

/-- `_prop_arg_code`, semantic_tuple_extractor.py:30-33 -/
def propArgCode (n : Node) : Str := if n.tag = .ADJ then adjArgCode n else nounArgCode n

/-- `__not_passive`, semantic_tuple_extractor.py:37 -/
def notPassive : List Str := [c!"have", c!"get"]
/-- `__not_intransitive`, semantic_tuple_extractor.py:38 -/
def notIntransitive : List Str := [c!"have", c!"get", c!"be", c!"do"]

/-- `for x in l: result.extend(f(x))` -/
def collect {α β : Type} (l : List α) (f : α → Except PyErr (List β)) : Except PyErr (List β) :=
  match l with
  | [] => .ok []
  | x :: l => do
    let a ← f x
    let b ← collect l f
    return a ++ b

section
-- `pp` is `past_participle` of the inflector
variable (pp : Str → Str) (h : Heap)

/-- `[s for s in refs if s.tag in NOUN_TAGS]` -/
def nominals (l : List Ref) : List Ref := l.filter fun s => (h.node s).tag ∈ nounTags

/-- `Argument(x.canon, _noun_arg_code(x))` -/
def nounArg (r : Ref) : Except PyErr Argument := Argument.new (h.node r).canon (nounArgCode (h.node r))

/-- The past participle with its particles, semantic_tuple_extractor.py:130-132 and 204-206 -/
def ppWithParticles (verb : Ref) : Str :=
  if (h.node verb).particles.isEmpty then pp (h.node verb).lem
  else join c!" " (pp (h.node verb).lem :: (h.node verb).particles)

/-- Body of the loop on `subj_2`, semantic_tuple_extractor.py:80-98 -/
def clauseTuples (verb subj1 obj1 subj2 : Ref) : Except PyErr (List STuple) := do
  let subj1Arg ← nounArg h subj1
  let subj2Arg ← nounArg h subj2
  let v := h.node verb
  let o1 := h.node obj1
  let a ← (if !o1.cannotBeTransitive then (do
      let a ← (if o1.objs.isEmpty ∧ o1.canon ∉ notIntransitive then (do
          let isAff ← xnor [(h.node subj1).isAff, v.isAff, (h.node subj2).isAff, o1.isAff]
          let verbArg ← Argument.new v.canon c!"T" isAff
          let obj1Arg ← Argument.new o1.canon c!"I"
          .ok [STuple.mk [subj1Arg, verbArg, subj2Arg, obj1Arg]])
        else .ok [])
      let b ← collect (nominals h o1.objs) fun obj2 => do
        let isAff ← xnor [(h.node subj1).isAff, v.isAff, (h.node subj2).isAff, o1.isAff, (h.node obj2).isAff]
        let verbArg ← Argument.new v.canon c!"T" isAff
        let obj1Arg ← Argument.new o1.canon c!"T"
        let obj2Arg ← nounArg h obj2
        .ok [STuple.mk [subj1Arg, verbArg, subj2Arg, obj1Arg, obj2Arg]]
      return a ++ b)
    else .ok [])
  let b ← collect o1.props fun prop => do
    let isAff ← xnor [(h.node subj1).isAff, v.isAff, (h.node subj2).isAff, o1.isAff, (h.node prop).isAff]
    let verbArg ← Argument.new v.canon c!"T" isAff
    let obj1Arg ← Argument.new o1.canon c!"C"
    let propArg ← Argument.new (h.node prop).canon (propArgCode (h.node prop))
    .ok [STuple.mk [subj1Arg, verbArg, subj2Arg, obj1Arg, propArg]]
  return a ++ b

/-- `subjs_2`, semantic_tuple_extractor.py:75-78 -/
def subjs2 (subj1 obj1 : Ref) : List Ref :=
  if (h.node obj1).subjs.isEmpty then [subj1] else nominals h (h.node obj1).subjs

/-- Objects of a verb that are verbs. -/
def verbObjs (verb : Ref) : List Ref := (h.node verb).objs.filter fun o => (h.node o).tag = .VERB

/-- Tuples of `__make_stuples_from_verbs_subjs_objs`, semantic_tuple_extractor.py:68-99 -/
def fromVerbsSubjsObjs (verb : Ref) : Except PyErr (List STuple) :=
  collect (nominals h (h.node verb).subjs) fun subj1 => do
    let _ ← nounArg h subj1
    collect (verbObjs h verb) fun obj1 => collect (subjs2 h subj1 obj1) fun subj2 => clauseTuples h verb subj1 obj1 subj2

/-- Nodes it adds to the set of blocked ones, semantic_tuple_extractor.py:71-74 -/
def blockedBy (verb : Ref) : List Ref := (nominals h (h.node verb).subjs).flatMap fun _ => verbObjs h verb

/-- `__make_stuples_from_subjs_objs`, semantic_tuple_extractor.py:101-117 -/
def fromSubjsObjs (verb : Ref) : Except PyErr (List STuple) := do
  let v := h.node verb
  let a ← (if v.objs.isEmpty ∧ v.canon ∉ notIntransitive then
      collect (nominals h v.subjs) fun subj => do
        let subjArg ← nounArg h subj
        let verbArg ← Argument.new v.canon c!"I" (← xnor [(h.node subj).isAff, v.isAff])
        .ok [STuple.mk [subjArg, verbArg]]
    else .ok [])
  let b ← collect (nominals h v.objs) fun obj => do
    let objArg ← nounArg h obj
    collect (nominals h v.subjs) fun subj => do
      let subjArg ← nounArg h subj
      let verbArg ← Argument.new v.canon c!"T" (← xnor [(h.node subj).isAff, v.isAff, (h.node obj).isAff])
      .ok [STuple.mk [subjArg, verbArg, objArg]]
  return a ++ b

/-- `__make_stuples_from_objs`, semantic_tuple_extractor.py:119-135 -/
def fromObjs (verb : Ref) : Except PyErr (List STuple) :=
  let v := h.node verb
  if v.canon ∉ notPassive then
    collect (nominals h v.objs) fun obj => do
      let objArg ← nounArg h obj
      let isAff ← (if v.subjs.isEmpty then xnor [v.isAff, (h.node obj).isAff]
        else xnor [v.subjs.any fun s => (h.node s).isAff, v.isAff, (h.node obj).isAff])
      let copulaArg ← Argument.new c!"be" c!"C" isAff
      let adjArg ← Argument.new (ppWithParticles pp h verb) c!"L"
      .ok [STuple.mk [objArg, copulaArg, adjArg]]
  else .ok []

/-- `__make_stuples_from_iobj`, semantic_tuple_extractor.py:137-146 -/
def fromIobj (verb : Ref) : Except PyErr (List STuple) :=
  collect (nominals h (h.node verb).iobjs) fun iobj => do
    let iobjArg ← nounArg h iobj
    collect (nominals h (h.node verb).subjs) fun subj => do
      let subjArg ← nounArg h subj
      let verbArg ← Argument.new (h.node verb).canon c!"R"
        (← xnor [(h.node subj).isAff, (h.node verb).isAff, (h.node iobj).isAff])
      .ok [STuple.mk [subjArg, verbArg, iobjArg]]

/-- The active forms, semantic_tuple_extractor.py:158-163 and 188-193 -/
def activeForms (noun adj : Ref) (nounArg' : Argument) : Except PyErr (List STuple) :=
  match (h.node adj).active with
  | some w => collect (nominals h (h.node adj).agents) fun agent => do
      let isAff ← xnor [(h.node agent).isAff, (h.node adj).isAff, (h.node noun).isAff]
      let verbArg ← Argument.new w c!"T" isAff
      let agentArg ← nounArg h agent
      .ok [STuple.mk [agentArg, verbArg, nounArg']]
  | none => .ok []

/-- `__make_stuples_from_naked_adjs`, semantic_tuple_extractor.py:148-164 -/
def fromNakedAdjs (noun : Ref) : Except PyErr (List STuple) := do
  let nounArg' ← nounArg h noun
  collect (h.node noun).adjs fun adj => do
    let copulaArg ← Argument.new c!"be" c!"C" (← xnor [(h.node adj).isAff, (h.node noun).isAff])
    let adjArg ← Argument.new (h.node adj).canon (adjArgCode (h.node adj))
    let act ← activeForms h noun adj nounArg'
    pure (STuple.mk [nounArg', copulaArg, adjArg] :: act)

/-- `__make_stuples_from_pp_props`, semantic_tuple_extractor.py:166-175 -/
def fromPpProps (noun : Ref) : Except PyErr (List STuple) := do
  let nounArg' ← nounArg h noun
  collect ((h.node noun).ppsProps.filter fun x => (h.node x.2).tag ∈ propTags) fun x => do
    let isAff ← xnor [(h.node noun).isAff, (h.node x.1).isAff, (h.node x.2).isAff]
    let copulaArg ← Argument.new (join c!" " [c!"be", (h.node x.1).canon]) c!"C" isAff
    let propArg ← Argument.new (h.node x.2).canon (propArgCode (h.node x.2))
    .ok [STuple.mk [nounArg', copulaArg, propArg]]

/-- `__make_stuples_from_copula_props`, semantic_tuple_extractor.py:177-194 -/
def fromCopulaProps (noun : Ref) : Except PyErr (List STuple) := do
  let nounArg' ← nounArg h noun
  collect ((h.node noun).copulasProps.filter fun x => (h.node x.2).tag ∈ propTags) fun x => do
    let isAff ← xnor [(h.node noun).isAff, (h.node x.1).isAff, (h.node x.2).isAff]
    let copulaArg ← Argument.new (h.node x.1).canon c!"C" isAff
    let propArg ← Argument.new (h.node x.2).canon (propArgCode (h.node x.2))
    let act ← (if (h.node x.2).tag = .ADJ then activeForms h noun x.2 nounArg' else .ok [])
    pure (STuple.mk [nounArg', copulaArg, propArg] :: act)

/-- Polarity, semantic_tuple_extractor.py:200-203 -/
def ipropAff (noun : Ref) (x : Option Ref × Ref × Ref) : Except PyErr Bool :=
  match x.1 with
  | none => xnor [(h.node x.2.1).isAff, (h.node noun).isAff, (h.node x.2.2).isAff]
  | some s => xnor [(h.node s).isAff, (h.node x.2.1).isAff, (h.node noun).isAff, (h.node x.2.2).isAff]

/-- `__make_stuples_from_iprops`, semantic_tuple_extractor.py:196-210 -/
def fromIprops (noun : Ref) : Except PyErr (List STuple) := do
  let nounArg' ← nounArg h noun
  collect ((h.node noun).subjsVerbsIprops.filter fun x => (h.node x.2.2).tag ∈ propTags) fun x => do
    let isAff ← ipropAff h noun x
    let copulaArg ← Argument.new (join c!" " [c!"be", ppWithParticles pp h x.2.1]) c!"C" isAff
    let ipropArg ← Argument.new (h.node x.2.2).canon (propArgCode (h.node x.2.2))
    .ok [STuple.mk [nounArg', copulaArg, ipropArg]]

/-- Condition of the first two rounds on verbs, semantic_tuple_extractor.py:50 and 54 -/
def headVerb (r : Ref) : Bool :=
  (h.node r).tag = .VERB && !((h.node r).isInfTo || (h.node r).cannotBeTransitive)

/-- Second round on one node, semantic_tuple_extractor.py:54-61 -/
def secondRound (node : Ref) : Except PyErr (List STuple) :=
  if headVerb h node then do
    let a ← fromSubjsObjs h node
    let b ← fromIobj h node
    return a ++ b
  else if (h.node node).tag ∈ nounTags then do
    let a ← fromIprops pp h node
    let b ← fromCopulaProps h node
    let c ← fromPpProps h node
    let d ← fromNakedAdjs h node
    return a ++ (b ++ (c ++ d))
  else .ok []

/-- Third round on one node, semantic_tuple_extractor.py:64-65 -/
def thirdRound (node : Ref) : Except PyErr (List STuple) :=
  if (h.node node).tag = .VERB ∧ (h.node node).cannotBeTransitive = false then fromObjs pp h node else .ok []

/-- `SemanticTupleExtractor.__call__`, semantic_tuple_extractor.py:43-66. The set of blocked nodes is only read after
the first round, so it is computed apart. -/
def extractTuples (nodes : List Ref) : Except PyErr (List STuple) := do
  let a ← collect nodes fun n => if headVerb h n then fromVerbsSubjsObjs h n else .ok []
  let blocked := (nodes.filter fun n => headVerb h n).flatMap (blockedBy h)
  let b ← collect (nodes.filter fun n => n ∉ blocked) (secondRound pp h)
  let c ← collect nodes (thirdRound pp h)
  return a ++ b ++ c

end

/-- `Sentence`, sentence.py:4-5 -/
structure Sentence where
  stuples : List STuple

/-- `Document`, document.py:4-5 -/
structure Document where
  sentences : List Sentence

/-- `stuples`, document.py:10-13: the nested comprehension. -/
def Document.stuples (d : Document) : List STuple :=
  d.sentences.foldl (fun acc s => s.stuples.foldl (fun acc t => acc ++ [t]) acc) []

end Model
