"""Writes /verif/properties.jsonl.  Each entry: title, statement, quantifier, why_tests_cant, anchors."""
import json

P = []


def p(title, statement, quantifier, why, *anchors):
    P.append(dict(id='C%02d' % (len(P) + 1), title=title, statement=statement, quantifier=quantifier,
                  why_tests_cant=why, anchors=list(anchors)))


# ---------------------------------------------------------------- utils
p('divide_list partitions its input',
  'divide_list(items, k) with k >= 1 returns consecutive slices whose concatenation is exactly items: nothing lost, '
  'duplicated or reordered, whatever floating point rounding linspace performs.',
  'every list, every positive number of parts, every monotone rounding with binary64-like relative error',
  'the boundaries come from floating point products of the length; a test only sees a few (length, parts) pairs',
  'scrappybara/utils/mutables.py:divide_list')
p('divide_list gives the requested number of balanced parts',
  'If k <= len(items), divide_list returns exactly k parts and (in exact arithmetic) any two part sizes differ by at '
  'most 1 and no part is empty; if k > len(items) it returns one singleton per item; k <= 0 is an assertion error.',
  'every list and every k',
  'balance must hold for all lengths and divisors',
  'scrappybara/utils/mutables.py:divide_list')
p('make_batches partitions its input into full batches',
  'make_batches(items, n) with n >= 1 concatenates back to items; every batch has between 1 and n items and all but '
  'the last have exactly n.',
  'every list, every batch size',
  'off-by-one at the last batch only shows for particular residues',
  'scrappybara/utils/mutables.py:make_batches')
p('run_multithreads is an order-preserving map under every schedule',
  'For a process that never raises, run_multithreads(items, process, k) returns [process(x) for x in items], for every '
  'interleaving of the worker threads.',
  'every list, every k >= 1, every schedule that lets all threads finish',
  'thread interleavings cannot be enumerated by tests',
  'scrappybara/utils/multithreading.py:run_multithreads', 'scrappybara/utils/multithreading.py:_Thread.run')
p('run_multithreads loses no item when the process raises',
  'If process raises on some items, the caller either sees the exception or still gets one result per remaining item.',
  'every list, every partial process, every schedule',
  'needs all positions of a failing item relative to slice boundaries',
  'scrappybara/utils/multithreading.py:run_multithreads', 'scrappybara/utils/multithreading.py:_Thread.run')
p('Tree parent/children views agree',
  'After any sequence of register_child calls in which every child is registered at most once, parent(c) = (l, p) iff c '
  'is listed in children_via(p, l) iff (l, c) is in children(p); children keep registration order per label.',
  'every history of register_child calls',
  'agreement of two dictionaries must hold after every history',
  'scrappybara/utils/tree.py:Tree.register_child', 'scrappybara/utils/tree.py:Tree.parent',
  'scrappybara/utils/tree.py:Tree.children', 'scrappybara/utils/tree.py:Tree.children_via')
p('Tree size and node enumeration',
  'len(tree) is 1 + the number of distinct registered children, equals len(tree.nodes), iteration yields exactly one '
  '(label, parent, child) per registered child (its latest registration), and nodes has no duplicates when the root is '
  'never registered as a child.',
  'every history of register_child calls',
  'must hold after re-registrations too',
  'scrappybara/utils/tree.py:Tree.__len__', 'scrappybara/utils/tree.py:Tree.nodes',
  'scrappybara/utils/tree.py:Tree.__iter__')
p('ancestors_via climbs exactly the maximal label path',
  'On an acyclic tree ancestors_via(n, l) terminates and returns, furthest first, exactly the nodes of the maximal '
  'chain of parent links labelled l starting at n, n excluded; on a cyclic one the recursion never ends.',
  'every tree, node and label',
  'depth is unbounded; termination is a statement about all trees',
  'scrappybara/utils/tree.py:Tree.ancestors_via')
p('descendants_via returns exactly the label-reachable nodes',
  'On an acyclic tree descendants_via(n, l) terminates and returns exactly the nodes reachable from n by one or more '
  'child links labelled l.',
  'every tree, node and label',
  'reachability at every depth',
  'scrappybara/utils/tree.py:Tree.descendants_via')
p('siblings are the other children of the parent',
  'After any history, siblings(n) lists exactly the (label, child) pairs of children(parent of n) whose child differs '
  'from n, and is empty for a node without parent.',
  'every history, every node',
  'must hold after every history',
  'scrappybara/utils/tree.py:Tree.siblings')
p('xnor is negation parity',
  'xnor of two or more booleans is True iff the number of False among them is even; with fewer than two it raises.',
  'every list of booleans',
  'unbounded argument count',
  'scrappybara/utils/maths.py:xnor')
p('Text marking round-trips',
  'defunctionalize(functionalize(f, a)) = (f, a) when neither contains "("; dissociate(associate(a, b)) = (a, b) when '
  'neither contains the separator; detach_attributes(attach_attributes(t, *attrs)) = [t, *attrs] when none contains the '
  'separator. None arguments are dropped.',
  'every string',
  'round-trips over all strings including empty ones',
  'scrappybara/utils/text.py:functionalize', 'scrappybara/utils/text.py:defunctionalize',
  'scrappybara/utils/text.py:associate', 'scrappybara/utils/text.py:dissociate',
  'scrappybara/utils/text.py:attach_attributes', 'scrappybara/utils/text.py:detach_attributes')
p('token_start and vowel_double_consonant_endings never raise and are exact',
  'token_start(t, e, m) returns s iff t = s + e with s non-empty and len(s) >= m, else None; '
  'vowel_double_consonant_endings(t) returns [c, cc] iff t ends vowel, c, c with c a consonant, else None - including '
  'for strings shorter than 3.',
  'every string, ending and minimum length (ending non-empty)',
  'index arithmetic from the end of the string on all lengths',
  'scrappybara/utils/text.py:token_start', 'scrappybara/utils/text.py:vowel_double_consonant_endings')
p('Prefix detection does not depend on set iteration order',
  'token_prefix(token, prefixes) with the lemmatizer\'s prefix set gives the same answer for every iteration order of '
  'the set (hash seed), so lemmatization is reproducible across runs.',
  'every token, every enumeration order of the prefix set',
  'hash randomisation is per process; a test sees one order',
  'scrappybara/utils/text.py:token_prefix', 'scrappybara/normalization/lemmatizer.py:Lemmatizer')
p('Timer renders hours:minutes:seconds faithfully',
  'The rendered time h:mm:ss of a duration t satisfies 3600h + 60m + s = floor(t), m < 60, s < 60, and lap times sum '
  'to the total.',
  'every non-negative duration and every sequence of clock readings',
  'carry boundaries at every magnitude',
  'scrappybara/utils/timer.py:_time_string', 'scrappybara/utils/timer.py:Timer')
p('reverse_dict inverts injective dictionaries',
  'reverse_dict(d)[v] = k for every pair of an injective d; for a non-injective one the last inserted key wins; '
  'every value of the result is a key of d mapping back to it.',
  'every dictionary',
  'collisions and insertion order over all dictionaries',
  'scrappybara/utils/mutables.py:reverse_dict')
# ---------------------------------------------------------------- langmodel
p('extract_ngrams yields exactly the valid windows',
  'extract_ngrams(sentences, n) lists, sentence by sentence and left to right, the lower-cased join of every window of '
  'n consecutive tokens all of which are "I" or purely alphabetic and not capitalised; never across sentences.',
  'every list of token lists, every n >= 1',
  'window boundaries for all lengths and orders',
  'scrappybara/langmodel/ngrams_extraction.py:extract_ngrams')
p('NgramStore counts occurrences',
  'After any sequence of make_ngram calls, the store has one Ngram per distinct text, in first-seen order, whose count '
  'is the number of calls with that text.',
  'every sequence of texts',
  'must hold after every history',
  'scrappybara/langmodel/ngram_store.py:NgramStore.make_ngram')
p('Builder counts do not depend on the number of processes',
  'The stored n-gram texts, order and counts produced by LanguageModelBuilder from a text iterator are those of '
  'processing the texts one by one: independent of nb_processes, and the reading loop terminates after consuming every '
  'text.',
  'every finite iterator, every nb_processes >= 1',
  'batch boundaries against every corpus length',
  'scrappybara/langmodel/language_model_builder.py:LanguageModelBuilder.__call__')
p('Stored n-grams are closed under sub-windows',
  'In a store built by the builder with max order N, the prefix, suffix and every contiguous part of a stored n-gram is '
  'stored too with at least the same count; so the smoother never looks up a missing n-gram.',
  'every corpus and order',
  'a missing key raises only for particular corpora',
  'scrappybara/langmodel/ngrams_extraction.py:extract_ngrams', 'scrappybara/langmodel/mkn_smoother.py:MKNSmoother')
p('MLE probabilities form a distribution per order',
  'With maximum likelihood estimation each n-gram gets count/total of its order; all lie in (0, 1] and sum to 1 for '
  'each order, and the result does not depend on nb_processes.',
  'every store in which each order up to the maximum occurs, every nb_processes >= 1 (numbers of n-grams and processes up to 2^53, which floats hold exactly)',
  'sums over arbitrary vocabularies',
  'scrappybara/langmodel/mle_smoother.py:MLESmoother')
p('MKN discounts are defined exactly when the data is rich enough',
  'MKNSmoother raises ModifiedKneserNeyNotEnoughDataError iff some order 2..N has no n-gram of count 1, 2, 3 or 4; '
  'otherwise no division by zero occurs and 0 < d1 < 1, d2 < 2, d3 < 3.',
  'every store and maximum order',
  'quantifies over all count profiles',
  'scrappybara/langmodel/mkn_smoother.py:_prepare_mkn')
p('MKN wildcard counters are type counts',
  'The continuation counters used by the smoother equal the number of distinct stored n-grams matching the wildcard '
  'pattern (with count 1, 2, or >= 3 for the three backoff counters).',
  'every store with distinct n-grams over alphabetic tokens',
  'string-keyed counters could collide for some tokens',
  'scrappybara/langmodel/mkn_smoother.py:_prepare_mkn', 'scrappybara/langmodel/ngram.py:Ngram')
p('MKN unigram probabilities form a distribution',
  'Under modified Kneser-Ney the unigram probabilities are non-negative and sum to 1 (exact arithmetic).',
  'every store closed under sub-windows with at least one bigram, every nb_processes',
  'sum over arbitrary vocabularies',
  'scrappybara/langmodel/mkn_smoother.py:MKNSmoother.calc_unigram_probas')
p('MKN vectorised computation equals the interpolation formula',
  'For every order n >= 2 and n-gram, the computed probability is max(c - D(c), 0)/c(context) + gamma * p(lower) with '
  'the recursion ending at the unigram probability; no KeyError or division by zero on stores built by the builder; '
  'independent of nb_processes.',
  'every builder-made store that is rich enough, every order',
  'recursion through array columns for all shapes',
  'scrappybara/langmodel/mkn_smoother.py:MKNSmoother.calc_higher_order_probas',
  'scrappybara/langmodel/mkn_smoother.py:_calc_proba_recursive')
p('MKN probabilities lie in [0, 1]',
  'Every probability produced by modified Kneser-Ney smoothing is between 0 and 1.',
  'every rich enough store',
  'all count profiles',
  'scrappybara/langmodel/mkn_smoother.py:MKNSmoother')
p('A language model written by the builder can be loaded back',
  'Every n-gram written to the model files is read back with the same text and count and its probability rounded to 17 '
  'decimals.',
  'every list of n-grams with positive probability',
  'formatting and parsing over all magnitudes',
  'scrappybara/langmodel/language_model_builder.py:LanguageModelBuilder.__write_ngram_file',
  'scrappybara/langmodel/language_model.py:LanguageModel.__init__')
p('has_ngram is a threshold on the stored count',
  'has_ngram(g, m) is True iff m >= 1, g was loaded (its count reached the min count of its order) and count(g) >= m; '
  'it is antitone in m, and "g in lm" iff loaded.',
  'every model file, min counts, n-gram and threshold',
  'all thresholds and models',
  'scrappybara/langmodel/language_model.py:LanguageModel.has_ngram')
p('best_ngram returns the first most probable known candidate',
  'best_ngram(*c) is None iff no candidate is known; otherwise it is a known candidate, no candidate is more probable, '
  'and it is the first one with that log-probability.',
  'every model and candidate list',
  'ties and unknowns in every position',
  'scrappybara/langmodel/language_model.py:LanguageModel.best_ngram')
p('best_token maximises longest-context evidence first',
  'best_token(*t, before, after) is None iff no t is known; otherwise its vector (best n-gram log-probability for order '
  'N, ..., 2, then unigram) is lexicographically maximal, the last such token winning ties.',
  'every model, candidate list and context',
  'lexicographic maxima over all vectors',
  'scrappybara/langmodel/language_model.py:LanguageModel.best_token')
p('top_ngrams is the sorted, complete, limited list of an order',
  'top_ngrams(n, limit) contains exactly the loaded n-grams with n tokens, by descending probability, cut to limit.',
  'every model, order and limit',
  'sortedness and completeness for all models',
  'scrappybara/langmodel/language_model.py:LanguageModel.top_ngrams')
p('next_word backs off to the longest known context',
  'next_word(text, limit) returns, for the longest suffix of at most N-1 tokens that starts some loaded n-gram, exactly '
  'its continuations in descending probability, cut to limit; [] if there is none.',
  'every model and text',
  'all contexts and models',
  'scrappybara/langmodel/language_model.py:LanguageModel.next_word')
p('TokenContext.candidates enumerates every window around the token',
  'candidates(n) lists left to right all windows of n consecutive words of before+token+after that contain the token. With n - 1 words on both sides these are n candidates; the first is left_ngram, the last right_ngram.',
  'every context and order n >= 2',
  'only some length combinations expose the negative slice',
  'scrappybara/langmodel/token_context.py:TokenContext.candidates')
# ---------------------------------------------------------------- normalization
p('Standardizer only respells within known alternatives',
  'Standardizer never raises; it returns the token itself when the model has it at least 5 times or knows none of the '
  'alternatives; otherwise the result is the token with one spelling alternation applied, justified by an n-gram known '
  'to the model. The spellings our/or, ise/ize, ce/se, og/ogue, el/ell, ae/e and oe/e are tried in this order, the first of '
  'them with a known alternative decides, and the most probable alternative is taken.',
  'every token and language model',
  'all tokens; regex backtracking',
  'scrappybara/normalization/standardizer.py:Standardizer.__call__')
p('Lemmatizer is total',
  'Lemmatizer(word, tag) never raises an IndexError/KeyError, for any word (including empty) and tag, as long as no n-gram of the language model consists of white space only.',
  'every word, tag, dictionary and language model',
  'negative indexing on all short words',
  'scrappybara/normalization/lemmatizer.py:Lemmatizer.__call__')
p('Lemmatizer suffix is compatible with the tag',
  'The suffix returned is None or: third person/past/progressive for verbs, plural for nouns, comparative/superlative '
  'for adjectives and adverbs; other tags always get None.',
  'every word, tag, dictionaries and language model',
  'all branches for all words',
  'scrappybara/normalization/lemmatizer.py:Lemmatizer.__call__')
p('Lemmas come from tables or the language model',
  'For a word without white space, if the lemma differs from the lower-cased word then it comes from the fixed forms, or an irregular table (possibly '
  'behind a prefix), or it is the stem plus ending found by the language model (possibly behind a prefix); with an '
  'empty language model and tables, regular words are returned unchanged.',
  'every word, tag, dictionaries and language model',
  'all branches for all words',
  'scrappybara/normalization/lemmatizer.py:Lemmatizer.__call__')
p('Lemmatizer ignores case',
  'lemmatize(w, t) = lemmatize(w.lower(), t), and words whose tag is not verb, noun, adjective, adverb or nominal are '
  'only lower-cased.',
  'every word and tag',
  'all words',
  'scrappybara/normalization/lemmatizer.py:Lemmatizer.__call__')
p('Regular past participles end in -ed',
  'past_participle(lemma) is the table entry if there is one, otherwise it never raises, ends in "ed" and keeps all of '
  'the lemma except possibly a final y.',
  'every lemma and language model',
  'index guards for every length',
  'scrappybara/normalization/inflector.py:Inflector.past_participle')
p('Canonicalizer is a function of tag, lemma, chunk and particles',
  'canonicalisation maps object pronouns to subject pronouns, nouns with a chunk to it, verbs/adjectives to lemma plus '
  'particles, everything else to the lemma; active_verb is set iff the node is an adjective whose verb reading is past; '
  'a second application changes nothing.',
  'every node and lemmatizer',
  'all nodes',
  'scrappybara/normalization/canonicalizer.py:Canonicalizer.__call__')
# ---------------------------------------------------------------- syntax
p('Parsing always terminates without error',
  'For any predicted tags, dependencies and transitions, the parse of an n-token sentence completes within 2n '
  'transitions and no step pops an empty stack or buffer.',
  'every sentence length and every sequence of model predictions',
  'predictions are outputs of a neural network: arbitrary sequences',
  'scrappybara/syntax/parser.py:_Parse', 'scrappybara/syntax/parser.py:Parser.__call__')
p('Parse arcs are acyclic',
  'The arcs of a completed parse never contain a directed cycle, whatever transitions were predicted, so recursive tree '
  'walks on the parse terminate.',
  'every sequence of predicted transitions',
  'all transition sequences',
  'scrappybara/syntax/parser.py:_Parse.register_transition')
p('Parse arcs never cross',
  'Any two arcs of a parse are non-crossing (projective), as the transition system promises.',
  'every sequence of predicted transitions',
  'all transition sequences',
  'scrappybara/syntax/parser.py:_Parse.register_transition', 'scrappybara/syntax/transitions.py:Trans')
p('Parse root and arc labels are well formed',
  'A parse has a root iff it has an arc; the root has no parent and has a child; arcs join distinct non-NODEP tokens of '
  'the sentence; no arc is labelled ROOT or NODEP.',
  'every predictions',
  'all predictions',
  'scrappybara/syntax/parser.py:_Parse.root', 'scrappybara/syntax/parser.py:_build_tree')
p('Every token of a parse has at most one parent',
  'No token is child in two arcs of a parse.',
  'every sequence of predicted transitions',
  'all transition sequences',
  'scrappybara/syntax/parser.py:_Parse.register_transition', 'scrappybara/utils/tree.py:Tree.register_child')
p('Batching does not change parses',
  'With models that predict each row independently, Parser on a list of sentences returns for each sentence the same '
  'tags and tree as on that sentence alone, for every batch size and number of processes.',
  'every list of sentences, batch size >= 1 and number of processes >= 1',
  'interaction of sentences of different lengths in shared batches',
  'scrappybara/syntax/parser.py:Parser.__call__', 'scrappybara/utils/mutables.py:make_batches')
p('The gold transition oracle terminates and replays to the gold tree',
  'For a labelled projective sentence, feeding LabelledSentence.transitions to the parser recreates exactly the gold '
  'arcs; the oracle terminates on every labelled sentence.',
  'every projective labelled tree',
  'all trees',
  'scrappybara/syntax/labelled_data.py:LabelledSentence.transitions', 'scrappybara/syntax/parser.py:_Parse')
p('Arc crossing test is geometric and symmetric',
  'The crossing test used when validating labelled sentences holds of two arcs a, b iff exactly one endpoint of b lies strictly inside a and the other strictly outside '
  '(for arcs with distinct ends); it ignores argument order and arc direction.',
  'every pair of arcs',
  'all orderings of four integers',
  'scrappybara/syntax/labelled_data.py:_arcs_are_crossing')
p('Sentence vectors have fixed shape and fail only for long sentences',
  'vectorize_sentence raises SentenceTooLongError iff there are more than 50 tokens; otherwise it returns n+2 and a '
  '52x22 character matrix and 52 word vectors whose first n+2 rows are those of the padded tokens (last 20 characters '
  'kept) and the others zero; masks are one-hot.',
  'every token list, charset and wordset',
  'all lengths and word lengths',
  'scrappybara/syntax/training_samples.py:vectorize_sentence', 'scrappybara/syntax/training_samples.py:make_masks')
p('Character codes index the embedding and differ from padding',
  'Every code returned by a loaded Charset is below len(charset); distinct known chars get distinct codes, unknown ones '
  'share one unused code, and no known character has the padding code 0.',
  'every character and every enumeration order of the character set',
  'set order varies per process',
  'scrappybara/syntax/charset.py:Charset')
p('Tagger returns one tag per token',
  'Tagger.tag returns for each sentence exactly one tag per token.',
  'every list of sentences of at most 50 tokens',
  'all lengths',
  'scrappybara/syntax/tagger.py:Tagger.tag')
p('Nodifier never fails on parser trees',
  'For any tokens, tags and parse produced by the parser, nodification raises nothing and the root node is kept.',
  'every parse',
  'KeyErrors depend on rare shapes of flat/particle arcs',
  'scrappybara/syntax/nodifier.py:Nodifier.__call__')
p('Nodifier keeps node indexes unique and in range',
  'The returned dictionary maps each key to a node with idx equal to the key, indexes are in range of the sentence '
  'and belong to tokens that the parse connects to others, and no node is functional (attached by article, auxiliary, marker, negation, particle...).',
  'every parse',
  'all shapes of flat/particle arcs',
  'scrappybara/syntax/nodifier.py:Nodifier.__call__')
p('Noun chunks terminate and list each compound once in sentence order',
  'Chunking terminates on every tree; a chunk is the lemmas of the root noun and all its transitive compound nouns, '
  'each once, in sentence order, the root noun last; nested compounds get no chunk of their own.',
  'every node set and tree',
  'recursion depth and order over all trees',
  'scrappybara/syntax/chunker.py:Chunker.__call__', 'scrappybara/syntax/chunker.py:_chunk')
p('Tag fixing is independent of node order',
  'Fixing all nodes gives the same tags for every iteration order; only leaf complements/properties change, only between '
  'nominal and adjective; it is idempotent when no word is in both lexicons, and a word in both flips at each pass.',
  'every tree, lexicons and order of nodes',
  'all orders',
  'scrappybara/syntax/fixer.py:Fixer.__call__')
p('Argument registration is exact',
  'Argument finding raises nothing on any tree; afterwards the subjects, objects, properties, adjectives, agents etc. of '
  'each node are exactly those the arcs give (with relative and reflexive pronouns resolved and coordinated nodes '
  'shared), so all of them are in the tree; a node is negative iff it has a NEG child; agents are only registered '
  'through a "by" marker.',
  'every node set and tree',
  'all trees',
  'scrappybara/syntax/arg_finder.py:ArgFinder.__call__')
p('Semantic tuples have only the documented shapes',
  'Every extracted tuple has code X I, X T X, X R X, X C Y, X T X I, X T X T X or X T X C Y with X a nominal code and Y '
  'a nominal or adjective code; so len is 2..5, nothing raises, and the tuples are exactly those that the grammar rules '
  '(13 of them) derive from the nodes.',
  'every registered node set',
  'all node graphs',
  'scrappybara/semantics/semantic_tuple_extractor.py:SemanticTupleExtractor.__call__')
p('Only the verb of a tuple can be negative, by parity',
  'In every extracted tuple only the second argument can be non-affirmative, and it is affirmative iff an even number of '
  'its participants is negated (in passive forms the subjects count as one, negated when all are; a subject shared by '
  'an infinitive clause counts twice).',
  'every registered node set',
  'all node graphs',
  'scrappybara/semantics/semantic_tuple_extractor.py:SemanticTupleExtractor.__call__',
  'scrappybara/utils/maths.py:xnor')
p('Copulas never appear as transitive or intransitive verbs',
  'A verb with a property, indirect property or existence never heads a T, I or R tuple; have/get/be/do never appear as '
  'intransitive; have/get never passivise.',
  'every registered node set',
  'all node graphs',
  'scrappybara/semantics/semantic_tuple_extractor.py:SemanticTupleExtractor')
p('Argument and SemanticTuple accessors are consistent',
  'Argument raises iff the code is not one of the 11 codes; tag is NOUN, VERB or ADJ; flatten prepends NOT iff negative '
  'and decorators are on; tuple code is the concatenation of argument codes with len(code) = len(tuple); '
  'has_any_arg_with_code(c) iff c occurs in code; arg(i) is the argument at i, counted from the end if negative, and IndexError outside; flatten is injective for words without ", " delimiters.',
  'every argument and tuple',
  'all words and codes',
  'scrappybara/semantics/argument.py:Argument', 'scrappybara/semantics/semantic_tuple.py:SemanticTuple')
p('Documents concatenate their sentences',
  'Document.stuples is the concatenation in order of the stuples of its sentences.',
  'every document',
  'all documents',
  'scrappybara/pipeline/document.py:Document')
# ---------------------------------------------------------------- pipeline
p('Long sentences are resplit below the limit and never crash the parser',
  'After resplitting, every sentence has at most 50 tokens, sentences of at most 50 tokens pass unchanged, tokens keep '
  'their order, and the parser never raises SentenceTooLongError.',
  'every text',
  'all lengths and splitter positions',
  'scrappybara/pipeline/pipeline.py:Pipeline.__split_tokens')
p('Documents align with texts',
  'With a sentencizer that does not raise, Pipeline returns one document per text, in order, and the document of a text '
  'is the same as when that text is processed alone, for every nb_cores, batch_size and schedule.',
  'every list of texts, nb_cores, batch_size, schedule',
  'cross-talk between texts in shared batches',
  'scrappybara/pipeline/pipeline.py:Pipeline.__call__')
p('A failing text does not disturb the other documents',
  'If sentencization of one text raises, the remaining texts still get their documents at their position (or the call '
  'raises).',
  'every list of texts',
  'depends on slice boundaries',
  'scrappybara/pipeline/pipeline.py:Pipeline.__call__', 'scrappybara/utils/multithreading.py:run_multithreads')
p('Sentences with fewer than two syntactic tokens yield no tuple',
  'A sentence in which fewer than two tokens are in the tree (in particular the empty text) yields no semantic tuple and '
  'no error.',
  'every predictions for such sentences',
  'all predictions',
  'scrappybara/pipeline/logic_pipeline.py:LogicPipeline', 'scrappybara/syntax/parser.py:_build_tree')
# ---------------------------------------------------------------- preprocessing
p('sanitize returns single-spaced trimmed text',
  'sanitize(text, rules) has no leading or trailing whitespace and words separated by exactly one space, for every rule '
  'list; with no rule it is the identity on words and idempotent.',
  'every text and rule list',
  'all unicode whitespace combinations',
  'scrappybara/preprocessing/sanitization.py:sanitize')
p('Tokens are non-empty and contain no whitespace',
  'Tokenizer(text) for non-empty text returns tokens that are non-empty and contain no whitespace; for empty text it '
  'returns [""].',
  'every text',
  'all texts',
  'scrappybara/preprocessing/tokenizer.py:Tokenizer.__call__')
p('Tokenization terminates',
  'The protection loop of the tokenizer (search, replace, search again) terminates on every text.',
  'every text',
  'an infinite loop needs one bad text',
  'scrappybara/preprocessing/tokenizer.py:Tokenizer.__protect_text')
p('Plain words are only split at spaces',
  'On a text made only of letters, digits and whitespace, tokenization is whitespace splitting, except that the word '
  'cannot (any case) becomes can not.',
  'every such text',
  'fifty regexes must all be inert on all such texts',
  'scrappybara/preprocessing/tokenizer.py:Tokenizer.__call__')
p('Internal placeholders never leak into tokens',
  'No token contains an internal placeholder such as _PROTECTED_1_ unless the text did.',
  'every text',
  'needs nested protected patterns',
  'scrappybara/preprocessing/tokenizer.py:Tokenizer.__protect_text')
p('Sentencizer never raises',
  'Sentencizer(text) returns a list of sentences for every string.',
  'every text',
  'rare character combinations',
  'scrappybara/preprocessing/sentencizer.py:Sentencizer.__call__')
p('Sentence splitting loses no token',
  'Splitting a token list at sentence enders keeps all tokens in order except the pilcrow marks; every sentence but '
  'possibly the last ends at an ender and contains no ender before its end.',
  'every token list',
  'all token lists',
  'scrappybara/preprocessing/sentencizer.py:Sentencizer.__split_sentences')
p('Quote and bracket blocks are cut out exactly',
  'find_blocks replaces each non-overlapping match by a numbered marker, stores its inner text under that number, and '
  'leaves the rest of the text in place (up to whitespace runs), for any number of matches and digits of the counter.',
  'every line of text and every prior block count',
  'offset bookkeeping across counter digit changes (9 to 10, 99 to 100)',
  'scrappybara/preprocessing/sentencizer.py:Sentencizer.__find_blocks')
p('Tokenization conserves the text',
  'For texts without underscores, digits next to quotes, or star runs, the concatenation of the tokens is the sanitized '
  'text without its whitespace: no character is lost, invented or reordered.',
  'every such text',
  'fifty substitutions on all texts',
  'scrappybara/preprocessing/tokenizer.py:Tokenizer.__call__')

p('Absence of crossing arcs suffices for the oracle',
  'If have_crossing_arcs is False for every pair of tokens of a labelled sentence with one root, replaying the '
  'sentence\'s transitions rebuilds every labelled arc.',
  'every labelled sentence',
  'all tree shapes',
  'scrappybara/syntax/labelled_data.py:LabelledSentence.have_crossing_arcs',
  'scrappybara/syntax/labelled_data.py:LabelledSentence.transitions')
p('Training labels are aligned with the sentence rows',
  'In every training sample of a sentence of n <= 50 tokens, the tag and dependency ids of token i stand in the row i+1 '
  'that holds the characters and vector of token i, all other rows hold the padding id, and the two masks of a '
  'transition sample mark exactly the rows of the two tokens of the transition.',
  'every sentence of at most 50 tokens, every labelling and every pair of tokens',
  'all lengths and positions',
  'scrappybara/syntax/training_samples.py:TransSample',
  'scrappybara/syntax/training_samples.py:PDepsSample')
p('Nodes carry the words and arcs of the parse',
  'Each node stands for a distinct position of the parse; it carries the text of that token with its particles in '
  'sentence order and whether "to" precedes, or the words of a chain of flat arcs joined from the top one down; the '
  'arcs of the node tree are exactly the arcs of the parse between those positions.',
  'every parse and every sentence',
  'all shapes of flat and particle arcs',
  'scrappybara/syntax/nodifier.py:Nodifier.__call__')
p('Nodification keeps every meaningful word',
  'Every token of a parse that is not attached by a functional label has its text in some returned node.',
  'every parse and every sentence',
  'all shapes of flat and particle arcs',
  'scrappybara/syntax/nodifier.py:Nodifier.__call__')
p('The node tree is acyclic',
  'The tree of nodes built from any parse has no cycle, so every walk up or down the tree terminates.',
  'every parse and every sentence',
  'cycles only show on particular networks outputs',
  'scrappybara/syntax/nodifier.py:Nodifier.__call__')

p('The tuples of a sentence are a function of its parse',
  'For every tree and tags the parser can return, tuple extraction does not raise, every node is normalized before '
  'chunking and canonicalized after it, and the tuples of the sentence are exactly those of its clauses.',
  'every output of the parser, every language model',
  'all shapes of trees that networks may predict',
  'scrappybara/pipeline/logic_pipeline.py:LogicPipeline')

p('The text that is tokenized',
  'Before tokenizing, typographic quotes become straight ones, every run of en and em dashes becomes a hyphen between '
  'two blanks, white space runs become one blank, and nothing else changes.',
  'every text',
  'all texts; runs of any length and mixture',
  'scrappybara/preprocessing/sanitization.py:sanitize', 'scrappybara/preprocessing/tokenizer.py:Tokenizer')

p('The sentence mark of the sentencizer stays internal',
  'The pilcrow that the sentencizer inserts to end a sentence after a closing quote never shows up in the tokens of a '
  'text that has no pilcrow of its own.',
  'every text without a pilcrow',
  'depends on what follows a closing quote and on brackets around it',
  'scrappybara/preprocessing/sentencizer.py:Sentencizer.__call__')
p('Cutting a text into sentences loses nothing',
  'Quotes and brackets are cut out, tokenized apart and put back where they were: the tokens of all sentences, put one '
  'after the other, are the sanitized text without its white space, except for pilcrows.',
  'every text that the tokenizer keeps',
  'any number, order and nesting of quotes, brackets and lines',
  'scrappybara/preprocessing/sentencizer.py:Sentencizer.__call__',
  'scrappybara/preprocessing/sentencizer.py:Sentencizer.__find_blocks')

p('Sentences never span lines',
  'The sentences of a text are the sentences of its lines, one after the other: a line break, with the white space around '
  'it, always ends a sentence, and what stands on one line has no influence on the sentences of another.',
  'every text without marker characters',
  'any number of lines, blank lines and mixtures of white space',
  'scrappybara/preprocessing/sentencizer.py:Sentencizer.__call__')
p('Sentences and tokens are not empty',
  'No sentence is empty, no token is the empty string, and no token holds white space.',
  'every text',
  'depends on blank lines, empty quotes, empty brackets and pilcrows anywhere in the text',
  'scrappybara/preprocessing/sentencizer.py:Sentencizer.__call__', 'scrappybara/preprocessing/tokenizer.py:Tokenizer.__call__')

p('Tables and sets load as they were written',
  'A table written one tab-separated pair per line, or a set written one word per line, loads as it was, with any kind of '
  'line ends and with or without one on the last line; a table raises ValueError exactly when some stripped line does not '
  'have one tab, and a key that occurs twice keeps its last value.',
  'every file content',
  'all contents, all line ends, repeated keys, blank lines and stray tabs anywhere',
  'scrappybara/utils/files.py:load_set_from_txt_file', 'scrappybara/utils/files.py:load_dict_from_txt_file')
p('The shipped irregular forms are the ones lemmatized',
  'With the shipped tables, every listed irregular form (preterit, past participle, plural, comparative, superlative) is '
  'lemmatized to the lemma of its line, also behind a prefix or a hyphen, and every listed participle is given back by the '
  'inflector from its lemma, whatever the language model and the lists of adjectives and nouns.',
  'every language model, every listed form, every text before a hyphen',
  'about 380 rows times all prefixes and all language models; tables shadow one another',
  'scrappybara/normalization/lemmatizer.py:Lemmatizer.__call__',
  'scrappybara/normalization/inflector.py:Inflector.past_participle',
  'scrappybara/pipeline/logic_pipeline.py:LogicPipeline.__init__')
p('The lemma of a word is its own lemma',
  'Lemmatizing a lemma again with the same tag gives the lemma: a word without an inflected ending and the lemmas of the '
  'shipped tables are left alone.',
  'every word, tag and language model',
  'depends on all words of the language model and on how rules chain',
  'scrappybara/normalization/lemmatizer.py:Lemmatizer.__call__')

p('Labelled sentences are read completely',
  'Reading a human-labelled sentence keeps every token with its tag, dependency and parent, and raises KeyError for an '
  'unknown tag or dependency name and AssertionError for a token that is its own parent, and nothing else.',
  'every list of token tuples',
  'any length, any names, any parent indices',
  'scrappybara/syntax/labelled_data.py:LabelledSentence.__init__')
p('Training data stays aligned',
  'After shuffling, row k of every column of the training data (characters, vectors, labels, masks, transitions) belongs '
  'to the same sentence or transition; each sentence, or each transition of each sentence, is there exactly once; '
  'extraction raises SentenceTooLongError exactly when a sentence has more than 50 tokens.',
  'every list of labelled sentences and every order in which the samples are shuffled',
  'all shuffles and all lists of sentences',
  'scrappybara/syntax/labelled_data.py:extract_ptags_training_data',
  'scrappybara/syntax/labelled_data.py:extract_pdeps_training_data',
  'scrappybara/syntax/labelled_data.py:extract_trans_training_data',
  'scrappybara/syntax/training_samples.py:TransSample.training_mats')
p('Predictions are the first best scores',
  'For every sentence and row, the predicted tag and label, and for every parse the predicted transition, are the codes '
  'with the best score, the first one if there are several; with scores of the shapes of the networks prediction never '
  'raises and returns only codes of known tags, labels and transitions, in as many rows as there are inputs. Codes stand '
  'for the tags, labels and transitions of the fixed numbering of the enumerations, and other codes raise ValueError.',
  'every function from inputs to scores',
  'all score matrices, with ties',
  'scrappybara/syntax/models.py:PTagsModel.predict', 'scrappybara/syntax/models.py:PDepsModel.predict',
  'scrappybara/syntax/models.py:TransModel.predict')
p('A built language model knows the n-grams of its texts',
  'LanguageModelBuilder refuses an unknown smoothing method and Kneser-Ney below order 2. What it writes from texts can be '
  'loaded with any minimum counts, and the loaded LanguageModel then knows an n-gram iff it occurs in the texts at least '
  'as often as the minimum of its order, with its number of occurrences as count and, with maximum likelihood '
  'estimation, its share of the occurrences of its order as probability (rounded to 17 decimals).',
  'all texts, maximum orders, numbers of processes, thread schedules and minimum counts',
  'all corpora and all interleavings of the smoothing threads, through the written files',
  'scrappybara/langmodel/language_model_builder.py:LanguageModelBuilder.__init__',
  'scrappybara/langmodel/language_model_builder.py:LanguageModelBuilder.__call__',
  'scrappybara/langmodel/language_model.py:LanguageModel.__init__')
p('What a sentence says depends on its arcs, not on their order',
  'The nodes and tuples of a sentence depend on its tokens, tags and the set of arcs (label, head, dependent) of its tree, '
  'not on the order in which the arcs were registered.',
  'all sentences, tags, roots and lists of arcs',
  'all permutations of all lists of arcs',
  'scrappybara/pipeline/logic_pipeline.py:LogicPipeline.__logic_process',
  'scrappybara/utils/tree.py:Tree.register_child', 'scrappybara/syntax/nodifier.py:Nodifier.__call__',
  'scrappybara/syntax/arg_finder.py:ArgFinder.__call__')
p('test_sample says what the pipeline would say',
  'When the networks reproduce the tags, labels and oracle transitions of a labelled projective sample, the pipeline gives '
  'the sentence of the sample, in whatever text it is found, exactly the tuples that test_sample gives the sample; '
  'test_sample raises nothing on such a sample.',
  'all samples, texts, networks, configurations and thread schedules',
  'all samples and networks, and all interleavings of the threads',
  'scrappybara/pipeline/logic_pipeline.py:LogicPipeline.test_sample',
  'scrappybara/pipeline/pipeline.py:Pipeline.__call__', 'scrappybara/syntax/parser.py:Parser.__call__')
p('_test_process shows what the pipeline does',
  '_test_process(text) raises nothing on a text and returns the tokens of its first sentence with the tags, tree, nodes and '
  'tuples of that sentence, the tuples being those that the pipeline gives to the first sentence of the text; _test_parse '
  'returns the same without the tuples.',
  'all texts, networks, configurations and thread schedules',
  'all texts and networks, and all interleavings of the threads',
  'scrappybara/pipeline/pipeline.py:Pipeline._test_parse', 'scrappybara/pipeline/pipeline.py:Pipeline._test_process',
  'scrappybara/pipeline/pipeline.py:Pipeline.__process_tokens')
p('Saved word vectors are those of the file, for the known words',
  'From a file with a word and its numbers per line, Wordset.save keeps the last vector of every word that the language '
  'model knows; a word is looked up in lower case and has the zero vector if nothing was kept for it. Saving raises exactly '
  'on the first blank line (IndexError) or non-number after a known word. With vectors of one size, no sentence of at most 50 '
  'tokens fails to be vectorized.',
  'all files, language models, words and sentences',
  'all contents of the vectors file and all language models',
  'scrappybara/syntax/wordset.py:Wordset.save', 'scrappybara/syntax/wordset.py:Wordset.__getitem__',
  'scrappybara/syntax/wordset.py:Wordset.__len__', 'scrappybara/syntax/training_samples.py:vectorize_sentence')
p('The pipeline put together from built files works end to end',
  'Pipeline() is constructed exactly if the n-gram files load, each line of the tables has one tab and the character set is '
  'not empty. With n-gram files written by LanguageModelBuilder (either smoothing), the shipped tables, a character set and '
  'word vectors saved by their save methods, and networks with scores of the right shapes, it is constructed, and on any '
  'texts without the reserved characters it raises nothing, can return whatever the threads did so far, and returns one document per '
  'text in order with one sentence per resplit sentence, with tuples of the documented shapes only, and gives the networks only '
  'character codes below the size of the character set.',
  'all training texts, files, networks, texts, configurations and thread schedules',
  'all training texts and data files together with all texts and all interleavings of the threads',
  'scrappybara/pipeline/pipeline.py:Pipeline.__init__', 'scrappybara/pipeline/pipeline.py:Pipeline.__call__',
  'scrappybara/pipeline/logic_pipeline.py:LogicPipeline.__init__', 'scrappybara/syntax/parser.py:Parser.__init__',
  'scrappybara/langmodel/language_model_builder.py:LanguageModelBuilder.__call__')
p('Chunking compound nouns only replaces nouns by their compounds',
  'Calling the pipeline with and without chunking of common nouns gives the same documents, sentences and tuples in the same '
  'order, argument by argument with the same codes and polarities, and with the same words, except that the lemma of a common '
  'noun may be replaced by its compound, which is made of the lemmas of nominals that stand before it in the sentence, in order, and ends '
  'with this lemma. False when the head of a compound, tagged as a common noun, is "by" or a relative or reflexive pronoun: '
  'what it refers to is then found only without chunking. Holds for all other sentences.',
  'all networks that predict rows independently, texts, tables, configurations and thread schedules',
  'a relation between two runs on all texts and all parses; tests compare few of them',
  'scrappybara/pipeline/logic_pipeline.py:LogicPipeline.__logic_process', 'scrappybara/syntax/chunker.py:Chunker.__call__',
  'scrappybara/pipeline/pipeline.py:Pipeline.__call__')
p('The words of tuples come from the sentence',
  'Every word of every tuple of a sentence of a document is made of words of that sentence: lower-cased tokens or their lemmas, '
  'joined by blanks and followed by lower-cased particles of the sentence, or the subject form of an object pronoun of the sentence, or the past '
  'participle of such a word with particles. Only a linking verb (code C) may be, or begin with, a "be" that is not in the sentence. '
  'No word of another sentence or of another text ever appears.',
  'all networks, texts, tables, configurations and thread schedules, with and without chunking',
  'a statement about all texts and all parses; tests look at few tuples',
  'scrappybara/pipeline/logic_pipeline.py:LogicPipeline.__logic_process', 'scrappybara/semantics/semantic_tuple_extractor.py:SemanticTupleExtractor.__call__',
  'scrappybara/pipeline/pipeline.py:Pipeline.__call__')
p('Negations and other function words only change polarity',
  'Relabelling words of a sentence among article, auxiliary, negation, interjection and modal changes no tuple but in polarity: the same '
  'tuples come in the same order with the same words and codes, and if the process raises it raises the same. This holds of every tree and in particular '
  'of every tree of the parser. If no word of the tree is a negation, all arguments of all tuples are affirmative, and flatten gives the same with and '
  'without decorators; in particular a sentence for which the network predicts no negation label has only affirmative tuples in its document. Leaving the negation word out of the tree is different: a coordinated verb may then get an object it did not have.',
  'all trees, sentences, tags, tables, with and without chunking',
  'pairs of runs over all trees; tests look at single runs',
  'scrappybara/syntax/arg_finder.py:ArgFinder', 'scrappybara/syntax/nodifier.py:Nodifier',
  'scrappybara/semantics/semantic_tuple_extractor.py:SemanticTupleExtractor.__call__')
p('Warnings of labelled sentences survive in JSON',
  'warnings_json is None iff register_warning was never called; otherwise it is a JSON text that any JSON reader reads as an object with one member per token '
  'in the order of first warnings, whose key is the token index and whose value lists the comments, whatever characters they contain, and the tokens in focus '
  'of all its warnings in order. So the text determines the warnings of every token. is_leaf(i) holds iff no token of the sentence has i as parent, and is an AttributeError '
  'for a sentence without ROOT.',
  'all sequences of register_warning calls with any comments, and all labelled sentences',
  'escaping of arbitrary comments and interleavings of calls; tests have a few fixed ones',
  'scrappybara/syntax/labelled_data.py:LabelledSentence.register_warning', 'scrappybara/syntax/labelled_data.py:LabelledSentence.warnings_json',
  'scrappybara/syntax/labelled_data.py:LabelledSentence.is_leaf')
p('Networks accept what the parser gives them, and every score belongs to its sentence',
  'Whatever the weights of the three networks, the parser never gives them a batch they refuse (a code outside an embedding, a row of another length, unequal numbers of marked '
  'states), as the vectors of every sentence of up to 50 tokens have the shapes and codes of the input layers and the masks of an incomplete parse mark one position each. The scores of a parse in a batch '
  'are those of the two marked states of its own sentence, so what is predicted for a sentence does not depend on the sentences it is batched with.',
  'all layers with the output shapes of models.py, all token lists, batch sizes, numbers of threads and schedules',
  'masking flattens the states of a whole batch, so one wrong mask shifts the scores of all later parses; only for all batches can that be excluded',
  'scrappybara/syntax/models.py:TransModel.predict', 'scrappybara/syntax/models.py:PDepsModel.predict', 'scrappybara/syntax/parser.py:Parser.__call__',
  'scrappybara/syntax/training_samples.py:make_masks', 'scrappybara/syntax/training_samples.py:vectorize_sentence')
p('Regular inflected words have the best attested base form as lemma',
  'A word that is no fixed or irregular form is read by its ending (and tag) as an inflected form of a few candidates, e.g. hoping as hop or hope. Its lemma is the candidate of the most probable pair '
  '"word candidate" of the language model, the word being one of i, you, we, they, may, might, can, could, would, should for verbs and a candidate otherwise; without any such pair, the most probable candidate; '
  'a single candidate has to be known; without any, the same after a prefix; otherwise, and when the ending is none of those listed, the word is its own lemma.',
  'all words without white space, all tags, all loaded language models and tables',
  'the rules are tried in turn and shadow one another; which one applies is only settled for all words by comparing with an order-free list of readings',
  'scrappybara/normalization/lemmatizer.py:Lemmatizer.__call__', 'scrappybara/normalization/lemmatizer.py:Lemmatizer.__best_candidate')

p('A regular verb is the lemma of its past participle',
  'past_participle(v) of a verb that is in no table, lemmatized as a verb, gives back v with the suffix PAST when the language model knows v and no other word the participle could come from.',
  'all verbs, language models and tables',
  'two modules with separate rules have to be inverse to each other; the exceptions are classes of words, not single ones',
  'scrappybara/normalization/inflector.py:Inflector.past_participle', 'scrappybara/normalization/lemmatizer.py:Lemmatizer.__call__')

p('What a parse states is reported',
  'Whenever the parse of a sentence contains a clause of one of these forms, the corresponding tuple is among the tuples of the sentence, with the lemmas of the words (when common nouns are chunked, a compound noun has the lemmas of its parts in the order of the sentence): verb with subject and object, verb with subject only, '
  'verb with recipient, the passive form of a verb with object, copula with property, adjective attached to a noun, passive with an agent after "by", relative clauses with a relative pronoun as subject or object or without pronoun, '
  'coordinated verb sharing the subject. This holds for every member of coordinated subjects, objects and properties, and the tuple is negative just when an odd number of the words taking part are negated.',
  'all sentences, predictions of the networks, language models and word tables; with and without chunking of common nouns',
  'sentences have arbitrarily many other words and arcs around the clause; tests only show it for listed sentences',
  'scrappybara/syntax/nodifier.py:Nodifier.__call__', 'scrappybara/syntax/arg_finder.py:ArgFinder.__call__', 'scrappybara/semantics/semantic_tuple_extractor.py:SemanticTupleExtractor.__call__', 'scrappybara/pipeline/pipeline.py:Pipeline.__call__')

p('The active form of a negated passive is negative',
  '"Songs are not sung by people" says that people do not sing songs: the polarity of the active form counts the negation of the copula.',
  'all sentences, predictions of the networks, language models and word tables; with and without chunking of common nouns',
  'the form depends on several words, each of which can be negated',
  'scrappybara/semantics/semantic_tuple_extractor.py:SemanticTupleExtractor.__make_stuples_from_copula_props')

p('A reflexive object stands for those who act',
  '"People hurt themselves" and "people who hurt themselves" say that people hurt people, for every member of coordinated people.',
  'all sentences, predictions of the networks, language models and word tables; with and without chunking of common nouns',
  'reflexive and relative pronouns are resolved in separate passes whose interaction depends on the whole parse',
  'scrappybara/syntax/arg_finder.py:ArgFinder.__call__', 'scrappybara/semantics/semantic_tuple_extractor.py:SemanticTupleExtractor.__make_stuples_from_subjs_objs')

p('Clauses, properties of objects and participles are reported',
  'Whenever the parse of a sentence contains one of these forms, the corresponding tuple is among the tuples of the sentence: a verb with a clause as object, itself with object, without object or with property ("people want '
  'children to sing songs", "to sing", "to be happy"), where the subject of the clause is its own, the one it shares, the one a reflexive stands for, or that of the main verb; a property of the object ("people call him John"); '
  'a past participle with a property or an agent ("songs called ballads", "songs sung by people"); a marked complement verb ("people earn money by singing songs"). This holds for every member of coordinated words, with the '
  'parity of the negations.',
  'all sentences, predictions of the networks, language models and word tables; with and without chunking of common nouns',
  'sentences have arbitrarily many other words and arcs around the clause; tests only show it for listed sentences',
  'scrappybara/syntax/nodifier.py:Nodifier.__call__', 'scrappybara/syntax/arg_finder.py:ArgFinder.__call__', 'scrappybara/semantics/semantic_tuple_extractor.py:SemanticTupleExtractor.__call__', 'scrappybara/pipeline/pipeline.py:Pipeline.__call__')

p('What is only wanted is not reported as a fact',
  'The verb of every tuple with a transitive, intransitive or recipient verb is said by a word of the sentence that is not merely the object clause of another verb, or is the verb of a past form; what people want, or do not want, '
  'to happen is not reported as happening, neither in active nor in passive form.',
  'all sentences, predictions of the networks, language models and word tables, for parses where every token is a word of its own or a function word of one; with and without chunking of common nouns',
  'it excludes tuples, over all parses, that no test sentence may happen to show',
  'scrappybara/semantics/semantic_tuple_extractor.py:SemanticTupleExtractor.__call__', 'scrappybara/semantics/semantic_tuple_extractor.py:SemanticTupleExtractor.__make_stuples_from_objs')

p('A document is the sum of its lines',
  'For a text without quotes, brackets and opening markers, the sentences and tuples of its document are the sentences and tuples of the documents of its lines, one line after another; it does not matter whether the lines are '
  'given to the pipeline as one text, as a text per line, or in two calls, nor which other texts, batch size and number of workers go with them.',
  'all such texts, batch sizes, numbers of workers, and networks that treat the sentences of a batch independently',
  'relates runs on unboundedly many different batches',
  'scrappybara/preprocessing/sentencizer.py:Sentencizer.__call__', 'scrappybara/pipeline/pipeline.py:Pipeline.__call__')

p('Training keeps the best epoch it reports',
  'The accuracy that training a network returns is the highest validation accuracy of the epochs that were run, and the network is left with the weights of the first epoch that reached it, so that validating the trained network '
  'gives the returned accuracy; if nothing is held out, accuracies are those logged on the training data. Training stops after the first epoch that is as many epochs away from the best one as the patience says, or when the epochs are used up. Without any epoch it raises KeyError.',
  'all networks, training steps, numbers of epochs and patiences',
  'the course of training is arbitrary; tests see one course',
  'scrappybara/syntax/models.py:_SentenceModel._learn')

p('Regular inflection is undone',
  'If a noun, verb or adjective is inflected by the rules of English spelling (plural, third person, progressive, comparative, superlative), the language model knows the word and knows none of the other words that '
  'the form may come from, and no table of exceptions has the form, then the lemmatizer returns the word, with the suffix that was added.',
  'all words, word tables and language models',
  'words are unboundedly many and the rules of spelling overlap; tests list a few words',
  'scrappybara/normalization/lemmatizer.py:Lemmatizer.__call__')

p('A language model loads exactly the files it can read',
  'LanguageModel(*min_counts) succeeds iff every line of every file has three tab-separated columns, the second one a whole number and, when that number reaches the minimum count of the order, the third one a positive decimal number; '
  'otherwise it raises ValueError. What is then known of an n-gram is the count and the probability of its last line, in reading order, among the lines whose counts reach the minimum of their order, and the logarithm of that probability. '
  'Lines may end in a line feed, a carriage return or both; signs and white space around the numbers are accepted.',
  'all file contents, with plain decimal numbers (no exponents, underscores, inf, nan or digits of other scripts), and minimum counts',
  'file contents are arbitrary; tests load one file',
  'scrappybara/langmodel/language_model.py:LanguageModel.__init__', 'scrappybara/utils/files.py:txt_file_reader')

p('Active statements come with their passive form',
  'When a tuple [x, T v, y] of a sentence says that x does v to y, and v is neither "have" nor "get", a tuple [y, C w, L p] of the same sentence says that y is p, where the participle p belongs to v: both have the same particles, and p is the past participle of the verb of the sentence, or a word of the sentence whose lemma as a past verb is v. '
  'The same holds of the inner verb of [x, T u, x2, T v, y], with w = "be".',
  'all parses of the parser, all texts and networks, with and without chunking, all configurations and schedules',
  'it ties two extraction paths (verbs, participles) together for all sentences; tests compare the tuples of a few sentences',
  'scrappybara/semantics/semantic_tuple_extractor.py:SemanticTupleExtractor.__call__', 'scrappybara/pipeline/logic_pipeline.py:LogicPipeline._logic_process',
  'scrappybara/normalization/canonicalizer.py:Canonicalizer.__call__')
p('The passive form is negated when the active form is',
  'The tuple [y, C w, L p] that goes with [x, T v, y] has the polarity of the latter.',
  'all parses of the parser, with and without chunking',
  'polarities are computed by different rules on the two paths; tests negate verbs only',
  'scrappybara/semantics/semantic_tuple_extractor.py:SemanticTupleExtractor.__call__')

p('A maximum likelihood model answers by the frequencies in its texts',
  'Build an n-gram model of order N by maximum likelihood estimation from texts and load it with any minimum counts. top_ngrams(n) then lists exactly the n-grams of n words that occur in the texts at least as often as the minimum of their order, with their numbers of occurrences, the most frequent ones first and equally frequent ones in order of first occurrence. next_word lists in the same way the words that come after the longest usable suffix of the text. '
  'best_ngram picks the first most frequent candidate of an order; best_token the last token with the greatest support, comparing the most frequent n-grams around the tokens order by order from the highest down.',
  'all texts with an n-gram of the highest order and at most 2^51 n-grams, all orders, numbers of threads, schedules, minimum counts, limits and queries (words without white space; for best_token at least N-1 words of left context or none)',
  'it needs different counts to stay different through division, rounding to 17 decimals and to floats, and sorting to be stable through two files and three dictionaries, for all corpora; tests query one small model',
  'scrappybara/langmodel/language_model_builder.py:LanguageModelBuilder.__call__', 'scrappybara/langmodel/language_model.py:LanguageModel.top_ngrams',
  'scrappybara/langmodel/language_model.py:LanguageModel.next_word', 'scrappybara/langmodel/language_model.py:LanguageModel.best_token')

p('The words after a context share at most the probability 1',
  'The probabilities that modified Kneser-Ney smoothing assigns to the n-grams with the same words but the last are not negative and add up to at most 1.',
  'all texts with enough data, all orders, contexts, numbers of threads and schedules',
  'a sum over all continuations of a context in any corpus; tests compare single probabilities with numbers computed by hand',
  'scrappybara/langmodel/mkn_smoother.py:MKNSmoother')

p('A language model depends on its sentences, not on their order',
  'Build two n-gram models of the same order and smoothing from the same sentences: the sentences may come in another order and be cut into texts in another way, and the numbers of threads and the schedules may differ. Loaded with the same minimum counts both models give the same answers: has_ngram, containment, length, best_ngram and best_token agree; top_ngrams and next_word list the same n-grams with the same counts and probabilities, '
  'and with any limit the same sequence of probabilities. Only n-grams with equal probabilities may change places.',
  'all pairs of lists of texts with the same sentences and at most 2^53 n-grams, all orders, numbers of threads, schedules, minimum counts, limits and queries, for every pair of runs that both return files; for maximum likelihood the texts must have an n-gram of the highest order; for modified Kneser-Ney every order from 2 up must have n-grams that occur once, twice, three and four times, and no positive probability may be so small that it is written as zero',
  'it relates two builds of arbitrary corpora that differ by a permutation, a regrouping and a schedule; tests build one corpus once',
  'scrappybara/langmodel/language_model_builder.py:LanguageModelBuilder.__call__', 'scrappybara/langmodel/language_model.py:LanguageModel.__init__',
  'scrappybara/langmodel/language_model.py:LanguageModel.best_token', 'scrappybara/langmodel/language_model.py:LanguageModel.next_word')

p('Ordinary prose is tokenized into its words, contractions and punctuation marks',
  'Take a text of ordinary printed words, possibly with brackets, quotation marks or punctuation marks that stand on their own between them: a word may have a contraction ("They\'re", "don\'t"), brackets or quotation marks before and after it, and a punctuation mark (, ; ! ? .). The tokenizer returns, in order, exactly the opening marks one by one, the word ("cannot" in any case as two tokens), the contraction, the closing marks and the punctuation mark; no character is lost, added or moved.',
  'all lists of words with any letters, digits, contractions in any case, brackets, quotation marks and punctuation, and all white space between them, for every Unicode database; excluded are words the tokenizer treats otherwise: equal brackets next to each other, smileys such as ";)", contractions or quotation marks directly after a digit (read as feet and inches), dots after abbreviations, single letters and "\'m", dots before a small letter, a digit or a punctuation mark on its own, and "cannotn\'t"',
  'more than sixty regular expressions run one after the other on the same text and may interfere; tests try single sentences',
  'scrappybara/preprocessing/tokenizer.py:Tokenizer.__call__', 'scrappybara/preprocessing/sanitization.py:sanitize')

p('Ordinary prose is split into its sentences',
  'Take a text whose lines consist of ordinary printed words (as in C119), quotations of such words between straight double quotation marks, and parentheses around words and quotations; quotations and parentheses may be followed by a punctuation mark. The sentencizer returns the sentences line by line. A sentence ends after a word, a quotation or a parenthesis that is followed by a full stop, an exclamation mark or a question mark; after a quotation with a full stop right before its closing quotation mark; and at the end of its line. It ends nowhere else: marks inside quotations and parentheses do not end it otherwise. Every sentence is given by the tokens of its words, with the quotation marks and parentheses as tokens of their own, and nothing is lost, repeated or moved.',
  'all texts with any number of lines, each of them with at least one word, quotation or parenthesis, all words as in C119, all white space, for every Unicode database; other brackets must be closed before the mark that ends the sentence, a quotation that ends with a full stop is followed by white space, and there is none of these within parentheses',
  'tests try a few sentences; the claim is about every text, with sanitization, block search, tokenization, splitting and the reinsertion of blocks one after the other',
  'scrappybara/preprocessing/sentencizer.py:Sentencizer.__call__', 'scrappybara/preprocessing/tokenizer.py:Tokenizer.__call__')

p('Tokenizing tokens again changes nothing',
  'Tokens that are joined by blanks and tokenized again stay the same. This fails for contracted verbs: "they\'re" becomes "they" and "\'re", and these become "they", "\'" and "re". It holds for every text of ordinary printed words and marks (as in C119) without contractions.',
  'all non-blank texts as in C119 without contractions, all white space, for every Unicode database; the failure is shown by a witness',
  'the claim composes the tokenizer with itself on every text; tests tokenize raw text only',
  'scrappybara/preprocessing/tokenizer.py:Tokenizer.__call__')

p('Standardizing a word twice changes nothing, and both spellings of a word become one',
  'A standardized word stays as it is when it is standardized again. This fails: where the model prefers "promize" to "promise", the word "promice" becomes "promise" and this becomes "promize". It holds for every word on which one of the five families of spellings (our/or, ise/ize, ce/se, og/ogue, el/ell) decides, apart from words in -ice, -ise, -yce, -yse that only the family ce/se decides. Two spellings of such a word that the model has both seen less than five times are standardized to the same spelling. (C34 states what the standard spelling is; the families are tried in a fixed order.)',
  'every loaded language model and every word on which a family decides; the failure is shown by a witness',
  'the claim composes the standardizer with itself, for every language model and word; tests check single words with one model',
  'scrappybara/normalization/standardizer.py:Standardizer.__call__', 'scrappybara/normalization/standardizer.py:_split_token')

p('Repeating every sentence of a corpus changes no probability',
  'A language model built from a corpus in which every sentence occurs k times as often (in any order, cut into texts in any way, with any number of processes), and loaded with minimal counts k times as high, gives the same answers as the model of the original corpus: the same n-grams, the same probabilities, best n-grams, best tokens and next words; every count is k times as high. This holds for maximum likelihood models. It fails for modified Kneser-Ney smoothing: from a corpus in which every sentence occurs at least twice no model is built at all, whatever the corpus (NotEnoughDataError).',
  'every corpus, number of copies, order, number of processes and schedule of the processes, and list of minimal counts',
  'the claim relates two runs of the whole pipeline on corpora of any size; tests build one model from a small corpus',
  'scrappybara/langmodel/language_model_builder.py:LanguageModelBuilder.__call__', 'scrappybara/langmodel/language_model.py:LanguageModel.__init__')

p('A model of ordinary prose counts the words that follow each other in its sentences',
  'Build a maximum likelihood model from texts whose lines consist of ordinary words (with contractions and punctuation marks), quotations and parentheses, and load it with any minimal counts. has_ngram of some words joined with blanks, with minimal count c >= 1, is true exactly when these words come one after another in the sentences of the texts at least c times, and at least as often as the minimum of their order. Words are compared in lower case; a word in the text that begins with a capital does not count, except "I". Words separated by a punctuation mark, a quotation mark, a parenthesis or the end of a sentence do not follow each other. (Sentences of such prose are those of C120.)',
  'every list of such texts, every order, number of processes and schedule, minimal counts, words and count',
  'the claim covers the whole way from printed text to the query, for every such text; tests check each step on single inputs',
  'scrappybara/langmodel/language_model_builder.py:LanguageModelBuilder.__call__', 'scrappybara/langmodel/language_model.py:LanguageModel.has_ngram', 'scrappybara/preprocessing/sentencizer.py:Sentencizer.__call__')

p('Nouns are interchangeable',
  'Replace some nouns of a sentence with other nouns and keep the parse. The sentence then has as many semantic tuples, in the same order, with the same kinds of arguments and the same polarity, and every argument is the same word, except that in arguments that are common or proper nouns the lemma of a replaced noun gives way to the lemma of the noun that replaces it, also within chunks. Replaced nouns are common or proper nouns that are not function words or parts of flat expressions; their lemmas are not listed as adjectives and are neither relative nor reflexive pronouns nor "by". In the parse no noun has a property (as a copula has) and no noun is coordinated to an adjective.',
  'every parse the parser returns, every pair of sentences with this parse that differ in such nouns, every loaded language model and lexicon, with and without chunking',
  'the claim relates two runs of the whole logic pipeline on sentences of any length with any words; tests check single sentences',
  'scrappybara/pipeline/logic_pipeline.py:LogicPipeline', 'scrappybara/syntax/nodifier.py:Nodifier.__call__', 'scrappybara/syntax/fixer.py:Fixer.__call__', 'scrappybara/syntax/chunker.py:Chunker.__call__', 'scrappybara/syntax/arg_finder.py:ArgFinder.__call__', 'scrappybara/semantics/semantic_tuple_extractor.py:SemanticTupleExtractor.__call__')

p('Letter case, function words and words outside the parse make no difference',
  'Two sentences with the same tags and the same parse have the same semantic tuples, in the same order, if they differ only as follows: in the letter case of words; in articles, auxiliaries, modals, negations, interjections, and markers of comparisons and infinitives; in other markers, such as prepositions, unless one of the two words is "by"; and in words that take part in no arc of the parse. (That a negation is there is visible in the tuples, but not which word it is.) The words of flat expressions are the same, and a function word that differs carries function words only and is not attached to a particle or to a further word of a flat expression.',
  'every parse the parser returns, every pair of sentences with this parse that differ in such words, every loaded language model and lexicon, with and without chunking',
  'the claim relates two runs of the whole logic pipeline on sentences of any length with any words; tests check single sentences',
  'scrappybara/pipeline/logic_pipeline.py:LogicPipeline', 'scrappybara/syntax/nodifier.py:Nodifier.__call__', 'scrappybara/syntax/fixer.py:Fixer.__call__', 'scrappybara/syntax/chunker.py:Chunker.__call__', 'scrappybara/syntax/arg_finder.py:ArgFinder.__call__', 'scrappybara/semantics/semantic_tuple_extractor.py:SemanticTupleExtractor.__call__')

p('Nothing is reported that the parse does not state',
  'Every tuple of a sentence is backed by tokens and arcs of its parse. For subject, verb and object: a verb token without "to", a token among those who act by it (its subject, the noun a relative pronoun stands for, the subject above that a reflexive stands for, the subject of the verb above a marked complement, shared with coordinated verbs without subject) and a token among those who undergo it (its object, the noun a relative clause hangs on, the subject when the object is reflexive), or a past participle with an agent after "by" that describes the other noun. In the same way for statements without object, with recipients, clauses as objects, properties, adjectives, participles and passive forms. The words of the tuple are the lemmas of these tokens (with particles, compounds or the subject form of pronouns), and the tuple is negative just when an odd number of them are negated. So a sentence without subjects, objects and complements has no tuples.',
  'all sentences, predictions of the networks, language models and word tables, with and without chunking; in parses where every token is a word of its own or a function word that carries nothing, apart from flat expressions, which count as one word (C128)',
  'tests see expected tuples of single sentences; that nothing else is ever reported is a claim about all parses',
  'scrappybara/pipeline/logic_pipeline.py:LogicPipeline', 'scrappybara/syntax/arg_finder.py:ArgFinder.__call__', 'scrappybara/semantics/semantic_tuple_extractor.py:SemanticTupleExtractor.__call__')

p('A flat expression counts as one word',
  'A flat expression ("New York City") is read as one word: its word is made of the texts of all its tokens, in order and with a blank between each two, its tag is that of its last token, and the arcs of its first token are its arcs. Whatever is reported about sentences of single words (C105, C107 to C109) is reported with flat expressions in the place of words: "New York City bakes cakes" gives (new york city, bake, cake). Conversely every tuple of a sentence is stated by the sentence in which flat expressions are one word each (C127): no tuple is made of a part of a flat expression. If that sentence is processed itself, both have the same tuples.',
  'every parse the parser returns and every set of its flat expressions, of any length, in which each further token is attached to the one before and nothing else is attached to further tokens; every language model and lexicon, with and without chunking',
  'the claim relates the tuples of sentences of any length, with any number of flat expressions in any place, to those of simpler sentences; tests check single sentences',
  'scrappybara/syntax/nodifier.py:Nodifier.__call__', 'scrappybara/pipeline/logic_pipeline.py:LogicPipeline', 'scrappybara/semantics/semantic_tuple_extractor.py:SemanticTupleExtractor.__call__')

p('Where words stand and what stands between them makes no difference',
  'Take two sentences with the same words in the same arcs: the words that take part in the parse come in the same order, are the same up to letter case, have the same tags and the same arcs between them. Then both sentences have the same semantic tuples. Tokens outside the parse, such as punctuation, parentheses and interruptions, may be different, and may be added or left out in any place. Articles, auxiliaries, modals and interjections may be added or left out too ("The foxes have baked formats" gives what "Foxes baked formats" gives), as long as complements, properties, coordinated words and the word without parent have something attached to them other than particles in both sentences or in none. Negations and markers must be in both sentences, but may be different words, except that "by" answers to "by". Flat expressions count as one word (C128): they may be of different lengths, and one sentence may have a single token in the place of the flat expression of the other.',
  'every two sentences with such parses, whatever the networks predict, every loaded language model and lexicon, with and without chunking; in parses where every token is a word of its own or a function word that carries nothing (as in C127)',
  'the claim relates two runs of the whole logic pipeline on sentences of different lengths; tests check single sentences',
  'scrappybara/pipeline/logic_pipeline.py:LogicPipeline', 'scrappybara/syntax/nodifier.py:Nodifier.__call__', 'scrappybara/syntax/chunker.py:Chunker.__call__', 'scrappybara/syntax/arg_finder.py:ArgFinder.__call__', 'scrappybara/semantics/semantic_tuple_extractor.py:SemanticTupleExtractor.__call__')

p('Exactly what the parse states is reported',
  'The semantic tuples of a sentence are exactly the statements of its parse: for each kind of tuple there is a rule on tokens and arcs, and a tuple is reported if and only if some rule gives it. Who does what to whom: the verb of a clause that is no object itself, a token among those who act by it and a token among those who undergo it, or a past participle with an agent after "by" that describes a noun or is said of it. Likewise for statements without object, with recipients, with clauses as objects, with properties, adjectives, participles and passive forms. The rules are about the tokens and arcs of the parse only: tags (corrected for bare complements and properties), lemmas, particles, compounds, which noun a relative or reflexive pronoun stands for, and which subjects and objects coordinated verbs share. So two sentences have the same tuples exactly when their parses state the same. (C127 is the direction that nothing else is reported.)',
  'all sentences, predictions of the networks, language models and word tables, with and without chunking; in parses where every token is a word of its own or a function word that carries nothing, apart from flat expressions, which count as one word (C128)',
  'that nothing is missed and nothing is made up, whatever the parse, is a claim about all parses; tests compare the tuples of single sentences',
  'scrappybara/pipeline/logic_pipeline.py:LogicPipeline', 'scrappybara/syntax/nodifier.py:Nodifier.__call__', 'scrappybara/syntax/fixer.py:Fixer.__call__', 'scrappybara/syntax/chunker.py:Chunker.__call__', 'scrappybara/syntax/arg_finder.py:ArgFinder.__call__', 'scrappybara/semantics/semantic_tuple_extractor.py:SemanticTupleExtractor.__call__')

p('Simple sentences report exactly what they say',
  'A sentence whose parse consists of a verb, its subject and its object, with function words, particles and coordinated nouns, reports subject, verb and object for each coordinated subject and object and the passive form for each object (unless the verb is "have" or "get"), and nothing else: "Foxes and hens bake cakes" gives (fox, bake, cake), (hen, bake, cake) and (cake, be, baked). A sentence of subject and verb reports the statement for each coordinated subject and nothing else; nothing at all if the verb is "have", "get", "be" or "do". A sentence of subject, verb and property reports each coordinated property without marker of each coordinated subject and nothing else. Statements are negative when an odd number of their words are negated; the passive form counts the subjects as negated when all of them are.',
  'all sentences with such parses, predictions of the networks, language models and word tables, with and without chunking; the object is no reflexive pronoun, the verb has no "to"',
  'tests compare single sentences; the claim gives the whole set of tuples for every sentence of these forms, with any number of coordinated words, function words and tokens outside the parse',
  'scrappybara/pipeline/logic_pipeline.py:LogicPipeline', 'scrappybara/syntax/arg_finder.py:ArgFinder.__call__', 'scrappybara/semantics/semantic_tuple_extractor.py:SemanticTupleExtractor.__call__')

p('Active and passive sentences report the same',
  'A simple active sentence and its passive counterpart with the agent after "by" ("Foxes bake cakes", "Cakes are baked by foxes") report the same semantic tuples: who does it to whom, for all coordinated nouns, and that it is done. This fails under negation: "Foxes do not bake cakes" gives (fox, NOT bake, cake), but "Cakes are not baked by foxes" gives (fox, bake, cake). It holds when nothing is negated. A passive sentence, negated or not, reports that each coordinated subject is what the participle says, and that each coordinated agent does it to each of them, and nothing else.',
  'all pairs of sentences with parses of these forms and the same nouns and verb, predictions of the networks, language models and word tables, with and without chunking; the verb is neither "have" nor "get" and has no "to", the object is no reflexive pronoun',
  'tests compare single sentences; the claim relates the whole sets of tuples of any two sentences of these forms, with any number of coordinated words, function words and tokens outside the parse',
  'scrappybara/pipeline/logic_pipeline.py:LogicPipeline', 'scrappybara/syntax/arg_finder.py:ArgFinder.__call__', 'scrappybara/semantics/semantic_tuple_extractor.py:SemanticTupleExtractor.__call__')

p('Tuples come in a fixed order, each as often as it is said',
  'The list of tuples of a sentence is fixed by its nodes and their registered arguments, with order and repetitions: first all statements with clauses as objects, verb by verb; then, node by node in the order of the nodes, what each other verb says (without object, by objects, by recipients) and what is said of each noun (what it is called, what it is, what participles say of it, its adjectives; each participle followed by its agents in order); at last the passive forms, verb by verb. Nothing is merged: an adjective said twice of a noun is reported twice. So in the list of any sentence, statements of four and five arguments come before all others, and passive forms come last.',
  'all sentences, predictions of the networks, language models and word tables, with and without chunking; at the level of nodes, all lists of nodes with any registered arguments',
  'tests compare the lists of single sentences; that no tuple is merged, repeated or moved is a claim about all of them',
  'scrappybara/semantics/semantic_tuple_extractor.py:SemanticTupleExtractor.__call__', 'scrappybara/pipeline/logic_pipeline.py:LogicPipeline')

p('Arguments are listed in order, each as often as arcs give it',
  'Argument finding registers on every node exactly the arguments the arcs of the parse tree give it, with order and repetitions: in the order of the nodes, each argument followed by those coordinated to it (by "and", then by "or"). Subjects by subject arcs (relative and reflexive pronouns replaced by what they stand for) come first, then subjects shared with marked complements; objects by object arcs come before nouns above relative clauses; recipients, properties, adjectives, copulas, names and agents likewise. A verb coordinated to another gets the subjects of the other only if it has none of its own, and its objects only if it has no child at all.',
  'all trees built from any list of arcs, all lists of nodes (with repetitions), all heaps whose nodes have no arguments yet',
  'tests compare a few sentences; that an argument is never lost, doubled or moved for any tree is a claim about all of them',
  'scrappybara/syntax/arg_finder.py:ArgFinder.__call__')

p('The list of tuples of a simple sentence is known word by word',
  'Take a sentence whose parse, apart from function words and coordinated nouns, consists of a verb, its subject and at most one object or property. With an object, the list of tuples is: for every object (the object, those coordinated by "and", those coordinated by "or"), for every subject in the same way, subject, verb and object, negative if an odd number of the three is negated; then for every object the passive form, with the negation of the verb and the object, and of the subjects if all of them are negated (none for "have" and "get"). Without object the list is subject and verb for every subject (none for "have", "get", "be" and "do"). With a property, and a subject without coordinated nouns, the list is subject, verb and property for every property without marker, in the same order. Nothing is missing, doubled, added or in another place: "Foxes and formats bake" gives (fox, bake), (format, bake).',
  'all sentences, predictions of the networks, language models and word tables, with and without chunking; in parses where every token is a word of its own or a function word that carries nothing, apart from flat expressions, which count as one word (C128)',
  'tests compare the lists of single sentences; this gives the whole list of every sentence of this form',
  'scrappybara/pipeline/logic_pipeline.py:LogicPipeline', 'scrappybara/syntax/arg_finder.py:ArgFinder.__call__', 'scrappybara/semantics/semantic_tuple_extractor.py:SemanticTupleExtractor.__call__')

p('The nodes of a sentence come in a fixed order',
  'The dictionary of nodes that nodification returns lists first the flat expressions ("New York City"), then the words with particles ("set up"), then all other words; within each of the three groups the nodes come in the order of the text, a flat expression counting as its last word. This holds for every parse where no word has two flat words below it, or a flat word and a particle.',
  'all parses of the parser in which no token has two FLAT children, or a FLAT and a PART child; all tokens, tags and lower-casing functions',
  'the order depends on three loops over all tokens and on which entries are overwritten; tests compare the nodes of single sentences',
  'scrappybara/syntax/nodifier.py:Nodifier.__call__')

p('The list of tuples of a sentence with a property and several subjects is known word by word',
  'Take a sentence whose parse, apart from function words and coordinated words, consists of a verb, its subject and a property, without flat expressions. The list of tuples is: for every subject (the subject and the nouns coordinated to it) in the order of the nodes of C136, for every property without marker (the property, those coordinated by "and", those coordinated by "or"), subject, verb and property, negative if an odd number of the three is negated. Nothing is missing, doubled, added or in another place: "Foxes or formats are baked" gives (fox, be, baked), (format, be, baked).',
  'all sentences, predictions of the networks, language models and word tables, with and without chunking; in parses where every token is a word of its own or a function word that carries nothing',
  'tests compare the lists of single sentences; this gives the whole list of every sentence of this form, whatever the order in which the parse lists the subjects',
  'scrappybara/pipeline/logic_pipeline.py:LogicPipeline', 'scrappybara/syntax/arg_finder.py:ArgFinder.__call__', 'scrappybara/semantics/semantic_tuple_extractor.py:SemanticTupleExtractor.__call__', 'scrappybara/syntax/nodifier.py:Nodifier.__call__')

p('Tests of the letters of a token are exact',
  'has_only_letters(token) is True iff the token is not empty and all its characters are among a-z and A-Z; has_only_lowercase_letters(token) is True iff it is not empty and all its characters are among a-z; starts_with_uppercase_letter(token) is True iff the first character is among A-Z, and ends_with_consonant(token) iff the last is among a-z without a, e, i, o, u, y; the last two raise an IndexError for the empty token and for no other.',
  'all tokens, over all characters',
  'a test tries a few words; accented letters, digits and the empty token are cases among infinitely many',
  'scrappybara/utils/text.py:has_only_letters', 'scrappybara/utils/text.py:has_only_lowercase_letters', 'scrappybara/utils/text.py:starts_with_uppercase_letter', 'scrappybara/utils/text.py:ends_with_consonant')

p('Sentences with a recipient report exactly what they say',
  'A sentence whose parse consists of a verb, its subject, its recipient (indirect object) and its object, with function words, particles and coordinated nouns, reports subject, verb and object for each coordinated subject and object, subject, verb and recipient for each coordinated subject and recipient, and the passive form for each object (unless the verb is "have" or "get"), and nothing else: "Foxes bake him and hens no cakes" gives (fox, NOT bake, cake), (fox, bake, he), (fox, bake, hen) and (cake, NOT be, baked). No passive form is given for recipients. Statements are negative when an odd number of their words are negated, so the negation of an object does not reach the statement of the recipient. The statements come object by object, then recipient by recipient, for each by subject, then the passive forms; each once for every arc of the parse.',
  'all sentences with such parses, predictions of the networks, language models and word tables, with and without chunking; the object is no reflexive pronoun, the verb has no "to"',
  'tests compare single sentences; the claim gives the whole set of tuples for every sentence of this form, with any number of coordinated words, function words and tokens outside the parse',
  'scrappybara/pipeline/logic_pipeline.py:LogicPipeline', 'scrappybara/syntax/arg_finder.py:ArgFinder.__call__', 'scrappybara/semantics/semantic_tuple_extractor.py:SemanticTupleExtractor.__call__')

p('Sentences that give a property to the object report exactly that property',
  'A sentence whose parse consists of a verb, its subject, its object and a property of the object ("people call him a star"), with function words, particles and coordinated words, reports "be" with the participle of the verb for each coordinated object and property - (he, be called, star) - and nothing else: neither (people, call, he) nor (he, be, called) nor any other statement with the subject. A statement is negative when an odd number of subject, verb, object and property are negated; of coordinated subjects only the first counts. The tuples come object by object in the order of the nodes, and for each object property by property in the order of the arcs.',
  'all sentences with such parses, predictions of the networks, language models and word tables, with and without chunking; the property is not coordinated to the object',
  'tests compare single sentences; the claim gives the whole set of tuples for every sentence of this form, with any number of coordinated words, function words and tokens outside the parse',
  'scrappybara/pipeline/logic_pipeline.py:LogicPipeline', 'scrappybara/syntax/arg_finder.py:ArgFinder.__call__', 'scrappybara/semantics/semantic_tuple_extractor.py:SemanticTupleExtractor.__call__')

p('That something exists is not reported',
  'A sentence whose parse consists of a verb with something that exists ("there are no foxes or hens"), with function words, particles and coordinated nouns, reports no tuple at all, whatever subjects, objects and recipients the verb has.',
  'all sentences with such parses, predictions of the networks, language models and word tables, with and without chunking',
  'tests try single sentences; that nothing is reported has to hold for every choice of words, number of coordinated nouns and of arguments of the verb',
  'scrappybara/pipeline/logic_pipeline.py:LogicPipeline', 'scrappybara/syntax/arg_finder.py:_register_exists', 'scrappybara/syntax/node.py:Node', 'scrappybara/semantics/semantic_tuple_extractor.py:SemanticTupleExtractor.__call__')

p('Sentences whose nouns have adjectives report exactly what they say',
  'A sentence whose parse consists of a verb, its subject and its object, with function words, particles, coordinated words and adjectives of nouns that are not listed as nouns ("red foxes bake nice and cheap cakes"), reports what a simple sentence of subject, verb and object reports (subject, verb and object for each coordinated subject and object, and the passive form for each object unless the verb is "have" or "get") and that each noun with adjectives without preposition is so, for each coordinated adjective, and nothing else. The latter is negative iff exactly one of noun and adjective is negated: "no red foxes bake" reports (fox, NOT be, red).',
  'all sentences with such parses, predictions of the networks, language models and word tables, with and without chunking; the object is no reflexive pronoun, the verb has no "to"',
  'tests compare single sentences; the claim gives the whole set of tuples for every sentence of this form, with any number of adjectives, coordinated words, function words and tokens outside the parse',
  'scrappybara/pipeline/logic_pipeline.py:LogicPipeline', 'scrappybara/syntax/arg_finder.py:ArgFinder.__call__', 'scrappybara/semantics/semantic_tuple_extractor.py:SemanticTupleExtractor.__call__')

p('Sentences with a clause as object report exactly what they say',
  'A sentence whose parse consists of a verb, its subject and, as its object, a clause of a verb with subject and object ("people want foxes to bake cakes"), with function words, particles and coordinated nouns, reports (people, want, fox, bake, cake) for each combination of coordinated nouns, and the passive form of the clause - (cake, be, baked), unless its verb is "have" or "get" - and nothing else; in particular neither that foxes bake cakes nor anything on people without the clause. The former is negative when an odd number of its five words are negated; the passive form does not depend on the negations of the outer subject and verb. Likewise for a clause without subject: "people want to bake cakes" reports (people, want, people, bake, cake) for each of the coordinated nouns, and (cake, be, baked), and nothing else. A clause of a verb alone, "people want to sing", reports (people, want, people, sing) for each of the coordinated nouns and nothing else, and nothing at all if the verb is one of have, get, be and do.',
  'all sentences with such parses, predictions of the networks, language models and word tables, with and without chunking; the nouns of the clause are no reflexive pronouns, the outer verb has no "to"',
  'tests compare single sentences; the claim gives the whole set of tuples for every sentence of this form, with any number of coordinated words, function words and tokens outside the parse',
  'scrappybara/pipeline/logic_pipeline.py:LogicPipeline', 'scrappybara/syntax/arg_finder.py:ArgFinder.__call__', 'scrappybara/semantics/semantic_tuple_extractor.py:SemanticTupleExtractor.__call__')

p('Nobody wanting to do something is not reported as somebody wanting it',
  'The statement reported for a verb whose object is a clause without subject ("no foxes want to bake cakes") is negative when an odd number of subject, verb, verb of the clause and its object are negated.',
  'all sentences whose parse consists of a verb, its subject and, as its object, a clause of verb and object, with function words, particles and coordinated nouns; all predictions of the networks, language models and word tables',
  'a test fixes one sentence; the polarity has to come out right for every combination of negations, of coordinated nouns and of words',
  'scrappybara/semantics/semantic_tuple_extractor.py:SemanticTupleExtractor.__call__', 'scrappybara/pipeline/logic_pipeline.py:LogicPipeline')

with open('/verif/properties.jsonl', 'w') as f:
    for x in P:
        f.write(json.dumps(x, ensure_ascii=False) + '\n')
print(len(P))
