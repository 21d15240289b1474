{
 "C05": {
  "note": "False of the code: a worker whose process raises contributes nothing and the exception is not propagated. Refuted by C05_run_multithreads_loses_items_false; the exact behaviour is C05_run_multithreads_exact_loss_partial."
 },
 "C78": {
  "note": "False of the code: two flat words below the same word, or a flat expression with a particle, lose words (C78_words_kept_false, C78_words_kept_particle_false). C78_words_kept_partial covers tokens without flat arcs, C78_flat_partial flat expressions of any length in which each further token is attached to the one before."
 },
 "C26": {
  "note": "False of the code: refuted by a store the builder can make whose probability is 3/2 (C26_probabilities_false) and one above 3 with all discounts positive (C26_positive_discounts_false). C26_bigrams_partial gives the bounds for bigram models with non-negative discounts."
 },
 "C27": {
  "note": "False for a positive probability of at most 5e-18: it is written as 0 and loading raises ValueError (C27_tiny_probability_false, general form C27_tiny_probability). C27_write_load_partial is the exact round trip for all larger probabilities."
 },
 "C33": {
  "note": "False when (n-1)/2 < len(before) < n-1: a negative slice start drops left context (C33_left_context_false). C33_candidates_partial covers all other contexts, C33_candidates_dropped says exactly what is lost."
 },
 "C45": {
  "note": "False of the code: LEFT after RIGHT gives a token a second head (C45_two_heads_false). C45_heads_partial: at most one head on each side, at most two in total."
 },
 "C50": {
  "note": "All but the last clause is proved (C50_codes); exactly one known character has the padding code 0 (C50_padding_code_false)."
 },
 "C51": {
  "note": "False of the code: the slice keeps padding tags (C51_one_tag_per_token_false). C51_tags_partial: the first tags are those of the tokens, and how many extra ones follow."
 },
 "C75": {
  "note": "False of the code: a labelled sentence without crossing arcs for which the oracle loses an arc (C75_crossing_check_suffices_false). The oracle is proved correct under full projectivity in C47."
 },
 "C70": {
  "note": "False of the code: a protected text that contains an earlier placeholder is put back with it inside (C70_placeholders_false), and NSD between two symbol placeholders is taken for a placeholder (C70_symbols_false). C70_no_placeholder_partial: true of every text without underscores, without the names NSD, NSGE, NSLE, without \"www.\" and in which slashes are away from dots, other slashes and abbreviations of \"and\" (Spec.Prose)."
 },
 "C71": {
  "note": "False of the code: a marker character in the text, or a quote marker that becomes part of a protected text, makes int() raise ValueError (C71_never_raises_false, C71_plain_text_raises_false). C71_returns_partial: every text without the marker characters, underscores, NSD, NSGE, NSLE and \"www.\" and in which slashes are away from dots, other slashes and abbreviations of \"and\" (Spec.Writing) is cut into sentences without exception. C71_no_blocks_partial: every text without double quotes, opening brackets and opening markers, addresses and underscores included."
 },
 "C64": {
  "note": "False of the code: a text on which the sentencizer raises takes the other texts of its thread with it and the later documents change position (C64_other_texts_lost_false, C64_positions_shift_false). C64_exact_loss_partial says exactly which documents are returned."
 },
 "C63": {
  "note": "The document of a text is independent of the other texts for networks that treat the rows of a batch independently (RowWise); alignment and exception freedom hold for all networks."
 },
 "C62": {
  "note": "Sentences of more than 50 tokens that have no splitter, or whose pieces are still longer, are dropped (as the code does); Resplit says exactly what is kept."
 },
 "C74": {
  "note": "False of the code as stated: NSD between two symbols and texts protected twice change characters (C74_conserves_false, C74_addresses_false). C74_conserves_partial: true when the text in addition does not contain NSD, NSGE, NSLE or \"www.\" and its slashes are away from dots, other slashes and abbreviations of \"and\" (Spec.Prose); C74_slashes_false shows why."
 },
 "C82": {
  "note": "False of the code: the pilcrow sticks to a word that follows the quote without a blank, and stays as a token inside brackets (C82_pilcrow_false). C82_no_pilcrow_partial: true of texts without .\" under the conditions of C83."
 },
 "C83": {
  "note": "False in general for the reasons of C74 (C83_conserves_false). C83_conserves_partial: exact for every text without marker characters, underscores, NSD, NSGE, NSLE, \"www.\", digits next to quotes and star runs whose slashes are away from dots, other slashes and abbreviations of \"and\" (Spec.Writing)."
 },
 "C84": {
  "note": "False of the code: the number of a quote may show up in a protected text, and it counts the quotes of the lines before (C84_numbers_false); with marker characters in the text, a line that looks like a marker takes its text from another line (C84_marker_false). C84_line_by_line_partial: exact for every text without double quotes, opening brackets and opening markers. C84_line_groups_partial: with quotes and brackets each line has its own sentences that conserve it, under the conditions of C83."
 },
 "C85": {
  "note": "False of the code: a trailing line break, an empty quote or bracket give empty tokens, and a pilcrow gives an empty sentence (C85_last_line_false, C85_empty_quote_false, C85_empty_bracket_false, C85_pilcrow_false). C85_tokens_partial: true whatever else is in the text."
 },
 "C86": {
  "note": "C86_load_dict_raises, C86_load_dict_rows, C86_load_dict_written, C86_load_set, C86_load_set_written. Blank lines are not tolerated in tables: C86_blank_line."
 },
 "C87": {
  "note": "The five data/english/irregular_*.txt files are copied line by line into Model/Lexicon.lean; theorems quantify over the language model, the lower-casing function and the word before a hyphen."
 },
 "C88": {
  "note": "False of the code: fed has the lemma feed, whose lemma is fee with the shipped unigrams (C88_lemma_of_lemma_false), and pass becomes pas (C88_base_form_false). C88_uninflected_partial: words that are neither listed nor end like inflected words are their own lemmas. C88_listed_lemmas_partial: all lemmas of the shipped tables but six verbs are."
 },
 "C89": {
  "note": "False of the code for sentences without ROOT, which are read as empty without any error (C89_no_root_false). C89_read_partial: true of sentences with a ROOT; C89_readable and C89_errors are exact for all sentences."
 },
 "C90": {
  "note": "random.shuffle is an arbitrary function that returns a permutation. C90_ptags, C90_pdeps, C90_trans: the columns; C90_too_long, C90_trans_too_long: exactly when extraction raises. A sentence without ROOT counts as empty (kept, see C89)."
 },
 "C91": {
  "note": "The scores are an arbitrary function of the inputs into a linear order (no NaN). The shapes are those of the last layers of the networks; one score vector per parse holds because each mask has exactly one True (C49, C90_trans)."
 },
 "C92": {
  "note": "Proved for maximum likelihood estimation whenever the texts have an n-gram of the highest order (otherwise KeyError, C92_mle_missing_order). For modified Kneser-Ney smoothing the claim is false (C92_mkn_lost_word_false): a word that never follows another one gets probability 0 and is not written. C92_mkn_partial gives what is known in general, C92_mkn_words_partial says that only such words are lost when no discount is negative. Both assume that no positive probability is written as zero (C27)."
 },
 "C93": {
  "note": "False in general (C93_arcs_order_false: with two subjects of a copula the property is said of the one registered first). Proved when every token has at most one head and the dependents of a token under SUBJ, OBJ, PROP, MARK, AND and OR keep their order (SameArcs)."
 },
 "C94": {
  "note": "False in general (C94_sample_false: the parser registers the left dependent next to the head first, the sample the leftmost one). Proved when no token has two left dependents under the same label among SUBJ, OBJ, PROP, MARK, AND and OR, for samples of at most 50 tokens. C94_no_root: a sample without root has no tuples. C94_error_hidden: whatever goes wrong in the thread, test_sample raises IndexError."
 },
 "C95": {
  "note": "False in general: sentences of more than 50 tokens are not resplit here. C95_long_first_false: a text of one such sentence is an IndexError; C95_other_sentence_false: if the first sentence is too long, its tokens are shown with the tags and tree of the second. Proved for texts with sentences of at most 50 tokens."
 },
 "C96": {
  "note": "C96_capitals: lines for words with capitals are kept but never used. C96_ragged_kept: sizes are not checked when saving, a short vector makes vectorize_sentence fail later."
 },
 "C97": {
  "note": "The training texts and the texts given are ordinary in the sense of C71. For modified Kneser-Ney the training data must not be poor and no positive probability may be rounded to zero when written (C92). Networks are functions of scores of the shapes of C91; the network files themselves are not modelled."
 },
 "C98": {
  "note": "Full statement refuted by C98_reflexive_false: \"themselves\" tagged NOUN with a compound. The partial results exclude heads of compounds whose lemma is one of the words argument finding looks for (PlainHeads)."
 },
 "C104": {
  "note": "False of the code: tricked and untied are left as they are although trick and untie are known, since icked and ied after a consonant are only read as of -ic and -y (C104_round_trip_false). C104_round_trip_partial: true of verbs of three letters or more that do not end in ick, icke, ie or i after two letters, the last a consonant, or in a vowel, a doubled consonant and e."
 },
 "C106": {
  "note": "False of the code: \"Foxes are not baked by formats\" is reported as NTN(format, bake, fox) (C106_negated_passive_false). C106_passive_partial: true when the copula is not negated."
 },
 "C107": {
  "note": "False of the code in relative clauses: \"Foxes who bake themselves\" is reported as NTO(fox, bake, who) (C107_relative_false). C107_reflexive_partial: true when the subject is no relative pronoun."
 },
 "C109": {
  "note": "False of the code for passive forms: \"Foxes do not want to bake formats\" is reported as NCL(format, be, baked) (C109_wanted_false). C109_verb_source and C109_meant_partial: true of active forms."
 },
 "C111": {
  "note": "With Keras 2, when the epochs are used up before the patience, the weights left are those of the last epoch, not of the best (C111_kept_false). C111_kept_partial: true if training stopped early, if the last epoch is the best, or with Keras 3."
 },
 "C112": {
  "note": "False of the code: going, using, lying, tricking, sieves and pelves are left as they are (C112_words_false, C112_round_trip_false). C112_round_trip_partial: true for words whose forms are legible, a condition mostly on lengths."
 },
 "C115": {
  "note": "False of the code: \"Foxes are not baked by formats\" gives NTN(format, bake, fox) but NCL(fox, NOT be, baked), and \"No foxes and formats bake foxes\" gives NTN(fox, NOT bake, fox) but NCL(fox, be, baked) (C115_voices_agree_false). C115_voices_agree_partial: true when only verbs other than copulas are negated."
 },
 "C117": {
  "note": "False of the code: in a small corpus with positive discounts the trigrams that begin with \"a a\" get 2017/600 together (C117_longer_contexts_false), and with a negative discount the bigrams after \"g\" get 3/2 (C117_negative_discount_false). C117_next_words_partial: true for contexts of one word when the discounts D2, D3 of order 2 are not negative."
 },
 "C121": {
  "note": "False of the code for contracted verbs: \"they're\" becomes \"they\", \"'re\", and these become \"they\", \"'\", \"re\" (C121_contractions_false). C121_stable_partial: true of ordinary prose without contractions."
 },
 "C122": {
  "note": "False of the code: \"promice\" becomes \"promise\" and this \"promize\" (C122_twice_false). C122_twice_partial: true of every word on which a family of spellings decides, apart from words in -ice, -ise, -yce, -yse that only the family ce/se decides."
 },
 "C123": {
  "note": "Proved for maximum likelihood models (C123_mle_partial). False for modified Kneser-Ney smoothing, which refuses every corpus in which each sentence occurs at least twice (C123_mkn_refused, witness C123_mkn_false)."
 },
 "C132": {
  "note": "False of the code: \"Foxes do not bake formats\" gives NTN(fox, NOT bake, format), \"Formats are not baked by foxes\" gives NTN(fox, bake, format) (C132_negated_false; the same cause as C106). C132_same_partial: true of affirmative sentences. C132_passive: all tuples of a passive sentence with agent."
 },
 "C138": {
  "note": "False of the code for has_only_lowercase_letters, which uses the regular expression of has_only_letters and accepts capital letters (C138_lowercase_false); C138_lowercase_partial says what it accepts. The three other functions are proved exact."
 },
 "C144": {
  "note": "False of the code: the subject of the verb stands for the missing subject of the clause, and its negation is counted for both, so that \"no foxes want to bake formats\" is reported as (fox, want, fox, bake, format) (C144_no_subject_false). C144_no_subject_partial gives the polarity of the code: that of verb, clause and object."
 }
}
