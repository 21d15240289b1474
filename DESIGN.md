# Machine-checked model of scrappybara

Source: `/repo` (python, read as text only). Model and proofs: Lean 4.33.0 with Mathlib, in `lean/`.
Properties: `properties.jsonl`. Status per property: `MANIFEST.json`. Mutation tests: `seeded/LOG.jsonl` (run with `tools/mutate.py`
in a scratch copy).

How to read the mutation log: "killed" says that the project no longer builds with the edit. Field `evidence` says what failed.
With `property` a property theorem or its example failed. With `lemma` only helper lemmas failed, and the properties that use them
could not be checked; most entries are of this kind. That is weaker evidence: proofs of helper lemmas follow the text of the model,
so they may fail although their statements, and all properties, stay true. M838 and M840 were such cases: after repair of the proofs
everything was built, and both are logged as survivors. The other `lemma` entries were not repaired and rechecked one by one.
(The field was added later to all entries, from the failures recorded in them.)

## Layout

* `Verif/Py/*`    - python primitives: strings, slices, dictionaries, exceptions, regular expressions.
* `Verif/Model/*` - the code, function by function; each definition cites file and lines in `/repo`.
* `Verif/Lemmas/*`- helper lemmas.
* `Verif/Spec/*`  - small specifications that do not mention the model's helper functions.
* `Verif/Props/*` - one file per area with the property theorems (named `Cnn_...`) and, beside each, an `example`
  with a concrete non-trivial case that meets the hypotheses.

## Conventions

* A python `str` is a `List Char`; literals are written `c!"..."`. Slices and negative indices follow python.
* A python exception is a value: `Except PyErr α`. Functions that can raise return `Except`; none of the totalised
  Lean defaults (`x / 0`, `getD`, ...) stands for a python error.
* A python `dict` is an insertion-ordered association list with unique keys. A python `set` is a list up to
  permutation; where iteration order is observable the model takes the order as a parameter and theorems quantify
  over it.
* A python `while`/recursion is a structural or well-founded recursion, or fuel plus a theorem that the fuel
  suffices. Non-termination is stated with the fuelled version ("no fuel suffices").
* Threads (`run_multithreads`): each thread is a list of atomic steps on its own slice; a schedule is any list of
  thread ids; theorems quantify over all complete schedules.
* Floats: probabilities are rationals, log-probabilities are values in a linear order obtained by a parameter that is
  strictly monotone; `linspace` is modelled with an abstract monotone rounding with binary64's error bound.
* Unicode data (`\w`, `\d`, `str.lower`, `str.isalpha`) is a parameter (`CharDB`) whose ASCII part is fixed; python's
  whitespace set is concrete.
* Regular expressions: `Verif/Py/Regex.lean` has a syntax tree and a backtracking matcher (list of successes in the
  order of python's engine). The pattern texts of the code are translated when the file is elaborated (`re%`, `rei%`).
* The tables of irregular forms in `Model/Lexicon.lean` are copies of files in the repository; `tools/check_data.py` compares
  them line by line.
* Agreement with the tests of the repository: `Verif/Tests` (written by `tools/gen_tests.py`, which reads `/repo/tests`
  as text) restates the assertions of the repository's own tests about the model and checks them in the kernel: all 257
  of `test_tokenizer.py`, the 30 sentences of `test_logic_pipeline.py`, all of
  `test_lemmatizer.py`, `test_standardizer.py`, `test_inflector.py`, `test_labelled_data.py`, `test_token_context.py`,
  `test_mkn_smoother.py` and `test_language_model_builder.py`. They hold of the model without exception. Word tables and 1-grams are those of
  `/repo/scrappybara/data`, cut down to spellings close to the tested words; a run (`#eval`) with the
  uncut tables and all 1-grams that share three initial letters with a tested word gave the same results. One sentence (`test_2`) needs a 2-gram, and the file of 2-grams is not in the repository: it is
  supplied by hand. Left out are `test_language_model.py` and `test_pipeline.py`, which need that file or the trained
  networks, and `test_sentencizer.py`, whose text takes the kernel more memory than there is (`#eval` finds the 16
  sentences). These tests are not properties, and mutation runs leave
  them out.
* Neural networks are arbitrary functions from their inputs to predictions.
* When the code violates a property, the negation is proved with a concrete witness (`Cnn_..._false`) and the part that
  holds is proved under the suffix `_partial`.

## Trusted base

* The Lean kernel and the three standard axioms `propext`, `Classical.choice`, `Quot.sound`. No other axiom, no
  `sorry`, no `native_decide`, no `bv_decide`. `AXIOMS.md` (written by `tools/gen_axioms.py`) lists the axioms of every
  property theorem.
* The reading of the python code into the model (definitions under `Verif/Model`, `Verif/Py`).
* `str.lower` is a parameter of the lemmatizer (C38 assumes it idempotent); the case-insensitive matching of the
  standardizer is that of python's `re.I` on `[a-z]` (ASCII letters and U+0130, U+0131, U+017F, U+212A).
* The python semantics assumed in `Verif/Py` (slicing, dict order, `re` backtracking semantics).

The pipeline theorems assume what the constructor loads: a lemmatizer whose language model has its 1-gram file loaded
(`LogicOk`) and networks that return one row per sentence (`NetsOk`); C63's independence clause assumes that the row of a
sentence does not depend on the other rows of the batch (`RowWise`). C102 derives both for the
networks of models.py, whose layers are taken as arbitrary functions of one sentence with fixed output shapes (inference
treats the sentences of a batch independently up to the masking layers; this is assumed of tensorflow).

Training (C111): one epoch is an arbitrary function on weights, validation an arbitrary function of them; the callback `EarlyStopping`
(mode max on the metric of the model, `restore_best_weights`) is transcribed from Keras, where versions 2 and 3 differ in restoring the
weights when the epochs are used up (`restoresAtEnd`).

Not modelled: GPU device selection, what tensorflow/keras layers compute in training and inference (scores are an arbitrary function of the inputs, C91), report and sample file IO (except the n-gram files), label
browsing, logging, multiprocessing transport (a pool `map` is an order-preserving map).

## Properties

| id | modelled | proof |
|----|----------|-------|
| C01-C03 | `divide_list`, `make_batches`, numpy `linspace` + slice | induction on the marks; rounding abstract |
| C04-C05 | `run_multithreads`, `_Thread` | schedules; per-thread invariant; C05 refuted by witness |
| C06-C10 | `Tree` | induction over registration histories; reachability relation as spec |
| C11 | `xnor` | induction |
| C12-C16 | `text.py`, `timer.py`, `reverse_dict` | direct, round-trip lemmas on split/join |
| C17-C20 | `extract_ngrams`, `NgramStore`, builder loop | window spec; count spec; infix closure |
| C21 | `MLESmoother` | sums over lists in ℚ |
| C22-C26 | `MKNSmoother` | counters = cardinalities; partition of bigrams by last token; C26 refuted by witness |
| C27-C28 | n-gram file writer and loader | decimal formatting on ℚ; round-trip; refuted for tiny probabilities |
| C29-C33 | `LanguageModel`, `TokenContext` | fold invariants; C33 refuted by witness |
| C34 | `Standardizer` | decision logic |
| C35-C40 | `Lemmatizer`, `Inflector`, `Canonicalizer` | decision logic, exception-freedom |
| C41-C46 | `_Parse`, `Parser`, `_build_tree` | transition system invariants; C45 refuted by witness |
| C47-C48, C75 | `LabelledSentence` | oracle/replay simulation |
| C49-C51, C76 | `training_samples`, `Charset`, `Tagger` | shapes; C50 part and C51 refuted by witness |
| C52-C56, C77-C79 | `Nodifier`, `Chunker`, `Fixer`, `ArgFinder` | heap of nodes; invariants over folds |
| C57-C61 | `SemanticTupleExtractor`, `Argument`, `SemanticTuple`, `Document` | decision logic |
| C62-C65, C80 | `Pipeline`, `LogicPipeline` (with an arbitrary sentencizer, or the modelled one) | composition of the above; C64 refuted by witness |
| C66-C74, C81-C85 | `sanitize`, `Tokenizer`, `Sentencizer` on a backtracking regex engine | engine soundness, rule by rule; texts as lists of characters and blocks, substitutions tracked unit by unit (Lemmas/Units to Conserve); quotes and brackets as words of a text with markers (Lemmas/Words to SentOrdinary); C70, C71, C74, C82-C85 refuted by witness and proved for texts without addresses, slashes included (Lemmas/Prose: where the patterns of protected text cannot match; Lemmas/Parts: what cutting a text at quotes, brackets and lines keeps); characters of tokens (SentChars), lines (SentLines), texts of all kinds (SentPlain) |
| C86 | `load_set_from_txt_file`, `load_dict_from_txt_file` | universal newlines, line ends; round-trip of written tables |
| C87-C88 | shipped tables of irregular forms with `Lemmatizer`, `Inflector` | rows copied from the files, facts evaluated by the kernel on listed words and lifted to prefixes and hyphens; C88 refuted by witness |
| C89-C90 | `LabelledSentence` from token tuples, `extract_*_training_data` | `zip(*…)` of equal columns, shuffles as arbitrary permutations; C89 refuted by sentences without root |
| C91 | `predict` methods on given scores, `np.argmax` | running maximum; the networks of the pipeline theorems are instances |
| C92 | `LanguageModelBuilder` end to end, constructor to loaded model | C17-C29 composed; Kneser-Ney part refuted by witness |
| C93 | whole logic pipeline on two registrations of the same arcs | relation between trees preserved by every stage; refuted by witness without order of ranked labels |
| C94 | `test_sample` against `Pipeline.__call__` | parser run synchronised with oracle run, then C93; refuted by witness |
| C95 | `_test_parse`, `_test_process` against `Pipeline.__call__` | C64 composed; refuted by witnesses for sentences over 50 tokens |
| C96 | `Wordset.save`, `__len__`, `__getitem__` | fold over written lines; number reading is a parameter |
| C97 | `Pipeline.__init__` with all the files it reads | composition of C50, C64, C71, C87, C91, C92, C96 |
| C98 | whole pipeline with and without chunking | simulation between the two runs: heaps that differ in chunks and canonical forms of nouns |
| C99 | whole pipeline | node invariants carried from nodify through standardizing, lemmatizing, canonicalizing, chunking and verb naming |
| C100 | tree to tuples, two runs | simulation between trees with the same arcs up to quiet labels, and between heaps up to polarity; the events of argument finding only differ in marking negations |
| C101 | `register_warning`, `warnings_json`, `is_leaf`; `json.dumps` on strings, integers, lists and dictionaries | an independent JSON reader (`Spec/Json.lean`); induction on values: what is written is read back whatever follows |
| C102 | `predict` of the three networks on batches (`Model/Layers.lean`), the parser calling `predict` methods that may raise | layers are arbitrary functions of one sentence; states selected by masks with one mark each; simulation of the raising parser by the one with networks sentence by sentence |
| C103-C104 | `Lemmatizer`, `Inflector.past_participle` | readings of endings as an order-free relation (`Spec/Inflection.lean`) against rules tried in turn; C104 refuted by witness |
| C105-C107 | the whole of `_logic_process` | clauses read off tokens and arcs (`Spec/Statements.lean`), compound nouns included when common nouns are chunked; tokens are followed through nodes (`Linked`) to the found arguments and tuples; C106 and C107 refuted by witnesses |
| C108-C109 | the whole of `_logic_process` | clauses as objects, participles and marked verbs read off tokens and arcs (`Spec/Clauses.lean`); C109 is the converse for verbs; its passive part is refuted by a witness |
| C110 | whole pipeline on a text and on its lines | C84's line theorem composed with independence of batches (C63) |
| C111 | `_SentenceModel._learn` with the loop of Keras' `fit` and `EarlyStopping` (`Model/Training.lean`) | invariant of the loop against the list of accuracies; refuted by witness for Keras 2 |
| C112 | `Lemmatizer` | English formation rules as an inductive relation (`Spec/English.lean`), each shown to be one of the readings of C103; refuted by witnesses |
| C113 | `LanguageModel.__init__` (reading of lines and numbers) | lines, numerals and rows as separate relations (`Spec/Files.lean`), shown equivalent to the readers of the model |
| C114-C115 | the whole of `_logic_process` | a closure of the set of tuples of a sentence (`Spec/Voice.lean`): every transitive statement comes with a passive one about its object; C115 (equal polarity) refuted by witnesses, proved when only verbs other than copulas are negated |
| C116 | `Builder.call` with `.mle`, `LM.load` and the four queries | answers in terms of numbers of occurrences in the texts only (`Spec/Frequency.lean`): lists of words after a context, stable order by count, support vectors; probabilities and logarithms do not occur in the order of the answers |
| C117 | `mknSmooth` | sums of assigned probabilities over the n-grams that extend a context; refuted for trigrams and for negative discounts, proved for bigrams with non-negative discounts |
| C118 | `Builder.call` with both smoothings, `LM.load` and all queries | two runs whose sentences are permutations of each other (`Spec/Corpora.lean`); equal answers as equations between the queries, lists as permutations with equal sequences of probabilities |
| C119 | `tokenize` with all its rules | printed words and their tokens (`Spec/Printed.lean`), independent of the rules; the exceptions are examples beside the theorem |
| C120 | `sentencize` with `tokenize` | lines (`Spec.Lines`) of printed words, quotations and parentheses (`Spec.Phrase`, `Spec.Chunk`), grouped into sentences by their marks (`Spec/Paragraphs.lean`) |
| C121 | `tokenize` twice | the pieces of C119; contractions are the counterexample |
| C122 | `standardize` | `Spec.Standard`: the first family that decides (`Spec/Standard.lean`); C34 is exact with respect to it |
| C123 | `Builder.call`, `LM.load` | `Spec.Copies`, `Spec.ScaledAnswers` (`Spec/Corpora.lean`) |
| C124 | `Builder.call` with the sentencizer and tokenizer of the repo, `LM.load`, `LM.hasNgram` | `Spec.runs`: positions of sentences where the words stand; `Spec.ProseText`, `Spec.proseSentences` (`Spec/Runs.lean`) |
| C125 | `Logic.process` (nodify, normalize, fix, chunk, canonicalize, find arguments, extract) | `Spec.NounsReplaced`, `Spec.NounsAsNouns`, `Spec.ArgReplaced` (`Spec/Nouns.lean`): tokens in which nouns differ, and arguments in which their lemmas do |
| C126 | `Logic.process` (nodify, normalize, fix, chunk, canonicalize, find arguments, extract) | `Spec.Reworded`, `Spec.SameSense` (`Spec/Wordings.lean`): tokens that differ in letter case, in function words, or outside the parse |
| C127 | `Logic.process` (all stages) | `Spec.Stated` with `Spec.Acts`, `Spec.Undergoes`, `Spec.Linking`, `Spec.Describes`, `Spec.Agent`, `Spec.WrittenAs` (`Spec/Grounds.lean`): what tokens and arcs must be there for a tuple |
| C128 | `Logic.process` (all stages) | `Spec.FlatRun`, `Spec.OneWord` (`Spec/Flats.lean`): the sentence with flat expressions as one word each; the tuples are those the specifications of C105 and C127 require of that sentence. `Reports` of C105, C107–C109 and C127 is about this sentence, `Reported` about the sentence itself |
| C129 | `Logic.process` (all stages) | `Spec.Moved` (`Spec/Alike.lean`): an increasing map of token positions that keeps arcs (other than those of articles, auxiliaries, modals and interjections), tags and words up to letter case; the tuples are the same as sets (proof: `Lemmas/Exact.lean` pairs the nodes of corresponding tokens, `Lemmas/Iso.lean` carries statements over) |
| C130 | `Logic.process` (all stages) | `Spec.Exactly.Stated` (`Spec/Exactly.lean`): the rules by which tokens and arcs make tuples, with who acts, who undergoes, tags, words and compounds defined on tokens only; a tuple is reported iff a rule gives it (proof: `Lemmas/Exactly.lean`, `ExactArgs.lean`, `ExactSaid.lean` relate every relation between nodes to the relation between their tokens) |
| C131 | `Logic.process` (all stages) | `Spec.Frame`, `Spec.Noun` (`Spec/Simple.lean`): parses of a verb, a subject and at most one object or property; the set of tuples is written out |
| C132 | `Logic.process` (all stages) | `Spec.PassiveFrame`, `Spec.Counterparts` (`Spec/Passive.lean`): parses of a copula, a subject, a participle and its agent; pairs of active and passive sentences of the same words |
| C133 | `extractTuples`, `Logic.process` | `Spec.Order.tuples` (`Spec/TupleOrder.lean`): the whole list of tuples by filters, maps and concatenations over the registered arguments, with no error values and no states |
| C134 | `findArgs` | `Spec.Order.Lists` (`Spec/ArgOrder.lean`): every list of arguments by filters and concatenations over nodes, parents and children in the tree, with no states |
| C135 | `Logic.process` | `Spec.Frame`, `Spec.together` (`Spec/SimpleList.lean`): the list written out by maps over the coordinated tokens of the parse |
| C136 | `nodify` | `Spec.nodeOrder` (`Spec/NodeOrder.lean`): three filters of the range of token indexes, read from the parse tree |
| C137 | `Logic.process` | `Spec.Frame`, `Spec.together`, `Spec.nodeOrder`: the list written out by maps over the coordinated tokens of the parse, in the order of the nodes |
| C138 | `hasOnlyLetters`, `hasOnlyLowercaseLetters`, `startsWithUppercaseLetter`, `endsWithConsonant` | lists of letters written out in `Props/Letters.lean`; the test for lowercase letters accepts capitals (`C138_lowercase_false`) |
| C139 | `Logic.process` on sentences with a recipient | `Spec/Giving.lean`: the shape of the parse, in terms of its arcs; the words as in C131 |
| C140 | `Logic.process` on sentences with a property of the object | `Spec/Calling.lean`: the shape of the parse, in terms of its arcs; the words as in C131 |
| C141 | `Logic.process` on sentences that only say that something exists | `Spec/Existing.lean`: the shape of the parse, in terms of its arcs |
| C142 | `Logic.process` on sentences whose nouns have adjectives | `Spec/Described.lean`: the shape of the parse, in terms of its arcs; the words as in C131 |
| C143 | `Logic.process` on sentences with a clause as object | `Spec/Wanting.lean`, `Spec/Intending.lean`, `Spec/Aiming.lean`: the shape of the parse, in terms of its arcs; the words as in C131 |
| C144 | `Logic.process` on sentences with a clause without subject as object | as C143; false of the code, which counts a negated subject twice (`C144_no_subject_false`) |
