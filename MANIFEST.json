{"claims": [
{"property": "C01", "status": "proved", "theorems": ["Props.C01_divide_list_partition"], "note": ""},
{"property": "C02", "status": "proved", "theorems": ["Props.C02_divide_list_balanced", "Props.C02_divide_list_float", "Props.C02_divide_list_singletons", "Props.C02_divide_list_assertion"], "note": ""},
{"property": "C03", "status": "proved", "theorems": ["Props.C03_make_batches", "Props.C03_make_batches_nonpositive"], "note": ""},
{"property": "C04", "status": "proved", "theorems": ["Props.C04_run_multithreads_map"], "note": ""},
{"property": "C05", "status": "partial", "theorems": ["Props.C05_run_multithreads_loses_items_false", "Props.C05_run_multithreads_exact_loss_partial"], "note": "False of the code: a worker whose process raises contributes nothing and the exception is not propagated. Refuted by C05_run_multithreads_loses_items_false; the exact behaviour is C05_run_multithreads_exact_loss_partial."},
{"property": "C06", "status": "proved", "theorems": ["Props.C06_tree_views", "Props.C06_tree_consistent", "Props.C06_tree_total", "Props.C06_tree_queries"], "note": ""},
{"property": "C07", "status": "proved", "theorems": ["Props.C07_tree_enumeration"], "note": ""},
{"property": "C08", "status": "proved", "theorems": ["Props.C08_ancestors_via", "Props.C08_ancestors_via_sound", "Props.C08_ancestors_via_cycle"], "note": ""},
{"property": "C09", "status": "proved", "theorems": ["Props.C09_descendants_via", "Props.C09_descendants_via_sound"], "note": ""},
{"property": "C10", "status": "proved", "theorems": ["Props.C10_siblings"], "note": ""},
{"property": "C11", "status": "proved", "theorems": ["Props.C11_xnor_parity", "Props.C11_xnor_error"], "note": ""},
{"property": "C12", "status": "proved", "theorems": ["Props.C12_functionalize_roundtrip", "Props.C12_associate_roundtrip", "Props.C12_dissociate_sound", "Props.C12_attributes_roundtrip"], "note": ""},
{"property": "C13", "status": "proved", "theorems": ["Props.C13_token_start", "Props.C13_vowel_double_consonant"], "note": ""},
{"property": "C14", "status": "proved", "theorems": ["Props.C14_lemmatizer_prefixes", "Props.C14_lemmatizer_order", "Props.C14_token_prefix_order", "Props.C14_token_prefix"], "note": ""},
{"property": "C15", "status": "proved", "theorems": ["Props.C15_time_string", "Props.C15_timer_laps", "Props.C15_timer_total"], "note": ""},
{"property": "C16", "status": "proved", "theorems": ["Props.C16_reverse_dict", "Props.C16_reverse_dict_inverse", "Props.C16_reverse_dict_total"], "note": ""},
{"property": "C17", "status": "proved", "theorems": ["Props.C17_extract_ngrams", "Props.C17_extract_ngrams_mem"], "note": ""},
{"property": "C18", "status": "proved", "theorems": ["Props.C18_store_counts"], "note": ""},
{"property": "C19", "status": "proved", "theorems": ["Props.C19_builder_counts", "Props.C19_builder_process_independent"], "note": ""},
{"property": "C20", "status": "proved", "theorems": ["Props.C20_store_closed"], "note": ""},
{"property": "C21", "status": "proved", "theorems": ["Props.C21_mle_probabilities", "Props.C21_mle_distribution", "Props.C21_mle_missing_order"], "note": ""},
{"property": "C22", "status": "proved", "theorems": ["Props.C22_not_enough_data", "Props.C22_discounts"], "note": ""},
{"property": "C23", "status": "proved", "theorems": ["Props.C23_wildcard_counts"], "note": ""},
{"property": "C24", "status": "proved", "theorems": ["Props.C24_unigram_distribution"], "note": ""},
{"property": "C25", "status": "proved", "theorems": ["Props.C25_mkn_formula", "Props.C25_mkn_value"], "note": ""},
{"property": "C26", "status": "partial", "theorems": ["Props.C26_probabilities_false", "Props.C26_positive_discounts_false", "Props.C26_bigrams_partial"], "note": "False of the code: refuted by a store the builder can make whose probability is 3/2 (C26_probabilities_false) and one above 3 with all discounts positive (C26_positive_discounts_false). C26_bigrams_partial gives the bounds for bigram models with non-negative discounts."},
{"property": "C27", "status": "partial", "theorems": ["Props.C27_write_load_partial", "Props.C27_rounding", "Props.C27_tiny_probability", "Props.C27_tiny_probability_false"], "note": "False for a positive probability of at most 5e-18: it is written as 0 and loading raises ValueError (C27_tiny_probability_false, general form C27_tiny_probability). C27_write_load_partial is the exact round trip for all larger probabilities."},
{"property": "C28", "status": "proved", "theorems": ["Props.C28_has_ngram", "Props.C28_antitone", "Props.C28_contains", "Props.C28_rows"], "note": ""},
{"property": "C29", "status": "proved", "theorems": ["Props.C29_best_ngram", "Props.C29_most_probable"], "note": ""},
{"property": "C30", "status": "proved", "theorems": ["Props.C30_best_token"], "note": ""},
{"property": "C31", "status": "proved", "theorems": ["Props.C31_top_ngrams", "Props.C31_membership", "Props.C31_nodup"], "note": ""},
{"property": "C32", "status": "proved", "theorems": ["Props.C32_next_word", "Props.C32_continuations", "Props.C32_empty_text"], "note": ""},
{"property": "C33", "status": "partial", "theorems": ["Props.C33_left_context_false", "Props.C33_candidates_partial", "Props.C33_candidates_dropped", "Props.C33_order_refused", "Props.C33_ends"], "note": "False when (n-1)/2 < len(before) < n-1: a negative slice start drops left context (C33_left_context_false). C33_candidates_partial covers all other contexts, C33_candidates_dropped says exactly what is lost."},
{"property": "C34", "status": "proved", "theorems": ["Props.C34_total", "Props.C34_known", "Props.C34_respelling", "Props.C34_decided", "Props.C34_empty", "Props.C34_unknown", "Props.C34_exact"], "note": ""},
{"property": "C35", "status": "proved", "theorems": ["Props.C35_total", "Props.C35_blank_ngram_raises"], "note": ""},
{"property": "C36", "status": "proved", "theorems": ["Props.C36_suffix"], "note": ""},
{"property": "C37", "status": "proved", "theorems": ["Props.C37_sources", "Props.C37_empty_model", "Props.C37_multi_word_loses"], "note": ""},
{"property": "C38", "status": "proved", "theorems": ["Props.C38_ignores_case", "Props.C38_same_lower", "Props.C38_other_tags"], "note": ""},
{"property": "C39", "status": "proved", "theorems": ["Props.C39_irregular", "Props.C39_regular", "Props.C39_double_known", "Props.C39_shape"], "note": ""},
{"property": "C40", "status": "proved", "theorems": ["Props.C40_total", "Props.C40_canon", "Props.C40_frame", "Props.C40_adjective", "Props.C40_active_verb", "Props.C40_idempotent", "Props.C40_suffix_overwritten"], "note": ""},
{"property": "C41", "status": "proved", "theorems": ["Props.C41_parse_terminates", "Props.C41_parser_terminates", "Props.C41_parser_aligned"], "note": ""},
{"property": "C42", "status": "proved", "theorems": ["Props.C42_parse_acyclic"], "note": ""},
{"property": "C43", "status": "proved", "theorems": ["Props.C43_parse_projective"], "note": ""},
{"property": "C44", "status": "proved", "theorems": ["Props.C44_parse_well_formed", "Props.C44_arc_labels", "Props.C44_predicted"], "note": ""},
{"property": "C45", "status": "partial", "theorems": ["Props.C45_two_heads_false", "Props.C45_heads_partial"], "note": "False of the code: LEFT after RIGHT gives a token a second head (C45_two_heads_false). C45_heads_partial: at most one head on each side, at most two in total."},
{"property": "C46", "status": "proved", "theorems": ["Props.C46_batching_irrelevant"], "note": ""},
{"property": "C47", "status": "proved", "theorems": ["Props.C47_oracle_terminates", "Props.C47_oracle_replays"], "note": ""},
{"property": "C48", "status": "proved", "theorems": ["Props.C48_crossing_geometric", "Props.C48_crossing_symmetric", "Props.C48_have_crossing"], "note": ""},
{"property": "C49", "status": "proved", "theorems": ["Props.C49_too_long", "Props.C49_vectors", "Props.C49_word_kept", "Props.C49_masks", "Props.C49_wordset"], "note": ""},
{"property": "C50", "status": "partial", "theorems": ["Props.C50_codes", "Props.C50_padding_code_false"], "note": "All but the last clause is proved (C50_codes); exactly one known character has the padding code 0 (C50_padding_code_false)."},
{"property": "C51", "status": "partial", "theorems": ["Props.C51_one_tag_per_token_false", "Props.C51_tags_partial", "Props.C51_empty_partial"], "note": "False of the code: the slice keeps padding tags (C51_one_tag_per_token_false). C51_tags_partial: the first tags are those of the tokens, and how many extra ones follow."},
{"property": "C52", "status": "proved", "theorems": ["Props.C52_nodifier_total"], "note": ""},
{"property": "C53", "status": "proved", "theorems": ["Props.C53_node_indexes", "Props.C53_node_in_parse"], "note": ""},
{"property": "C54", "status": "proved", "theorems": ["Props.C54_chunks"], "note": ""},
{"property": "C55", "status": "proved", "theorems": ["Props.C55_fix_effect", "Props.C55_fix_order", "Props.C55_fix_idempotent", "Props.C55_fix_flips"], "note": ""},
{"property": "C56", "status": "proved", "theorems": ["Props.C56_arguments_exact", "Props.C56_arguments_in_tree"], "note": ""},
{"property": "C57", "status": "proved", "theorems": ["Props.C57_extraction_exact", "Props.C57_shapes"], "note": ""},
{"property": "C58", "status": "proved", "theorems": ["Props.C58_only_second_negative", "Props.C58_parity", "Props.C58_shared_subject_cancels"], "note": ""},
{"property": "C59", "status": "proved", "theorems": ["Props.C59_verbs_are_plain", "Props.C59_clause_verbs_are_plain", "Props.C59_intransitive_words", "Props.C59_passive_words"], "note": ""},
{"property": "C60", "status": "proved", "theorems": ["Props.C60_argument_raises", "Props.C60_argument_keeps", "Props.C60_argument_tag", "Props.C60_argument_flatten", "Props.C60_tuple_code", "Props.C60_tuple_code_length", "Props.C60_tuple_arg", "Props.C60_has_any_arg_with_code", "Props.C60_flatten_injective"], "note": ""},
{"property": "C61", "status": "proved", "theorems": ["Props.C61_document_concat"], "note": ""},
{"property": "C62", "status": "proved", "theorems": ["Props.C62_resplit", "Props.C62_at_most_50", "Props.C62_short_unchanged", "Props.C62_order", "Props.C62_parser_never_raises"], "note": "Sentences of more than 50 tokens that have no splitter, or whose pieces are still longer, are dropped (as the code does); Resplit says exactly what is kept."},
{"property": "C63", "status": "proved", "theorems": ["Props.C63_aligned", "Props.C63_returns", "Props.C63_documents", "Props.C63_alone"], "note": "The document of a text is independent of the other texts for networks that treat the rows of a batch independently (RowWise); alignment and exception freedom hold for all networks."},
{"property": "C64", "status": "partial", "theorems": ["Props.C64_exact_loss_partial", "Props.C64_other_texts_lost_false", "Props.C64_positions_shift_false"], "note": "False of the code: a text on which the sentencizer raises takes the other texts of its thread with it and the later documents change position (C64_other_texts_lost_false, C64_positions_shift_false). C64_exact_loss_partial says exactly which documents are returned."},
{"property": "C65", "status": "proved", "theorems": ["Props.C65_no_tree", "Props.C65_predictions", "Props.C65_short", "Props.C65_no_tuples", "Props.C65_empty_text"], "note": ""},
{"property": "C66", "status": "proved", "theorems": ["Props.C66_single_spaced", "Props.C66_words", "Props.C66_idempotent", "Props.C66_fixed"], "note": ""},
{"property": "C67", "status": "proved", "theorems": ["Props.C67_tokens", "Props.C67_empty"], "note": ""},
{"property": "C68", "status": "proved", "theorems": ["Props.C68_terminates", "Props.C68_rounds"], "note": ""},
{"property": "C69", "status": "proved", "theorems": ["Props.C69_plain_words"], "note": ""},
{"property": "C70", "status": "partial", "theorems": ["Props.C70_no_placeholder_partial", "Props.C70_placeholders_false", "Props.C70_symbols_false"], "note": "False of the code: a protected text that contains an earlier placeholder is put back with it inside (C70_placeholders_false), and NSD between two symbol placeholders is taken for a placeholder (C70_symbols_false). C70_no_placeholder_partial: true of every text without underscores, without the names NSD, NSGE, NSLE, without \"www.\" and in which slashes are away from dots, other slashes and abbreviations of \"and\" (Spec.Prose)."},
{"property": "C71", "status": "partial", "theorems": ["Props.C71_no_blocks_partial", "Props.C71_never_raises_false", "Props.C71_plain_text_raises_false", "Props.C71_returns_partial"], "note": "False of the code: a marker character in the text, or a quote marker that becomes part of a protected text, makes int() raise ValueError (C71_never_raises_false, C71_plain_text_raises_false). C71_returns_partial: every text without the marker characters, underscores, NSD, NSGE, NSLE and \"www.\" and in which slashes are away from dots, other slashes and abbreviations of \"and\" (Spec.Writing) is cut into sentences without exception. C71_no_blocks_partial: every text without double quotes, opening brackets and opening markers, addresses and underscores included."},
{"property": "C72", "status": "proved", "theorems": ["Props.C72_parts", "Props.C72_conserves", "Props.C72_enders"], "note": ""},
{"property": "C73", "status": "proved", "theorems": ["Props.C73_quotes", "Props.C73_brackets"], "note": ""},
{"property": "C74", "status": "partial", "theorems": ["Props.C74_conserves_false", "Props.C74_addresses_false", "Props.C74_conserves_partial", "Props.C74_slashes_false"], "note": "False of the code as stated: NSD between two symbols and texts protected twice change characters (C74_conserves_false, C74_addresses_false). C74_conserves_partial: true when the text in addition does not contain NSD, NSGE, NSLE or \"www.\" and its slashes are away from dots, other slashes and abbreviations of \"and\" (Spec.Prose); C74_slashes_false shows why."},
{"property": "C75", "status": "partial", "theorems": ["Props.C75_crossing_check_suffices_false"], "note": "False of the code: a labelled sentence without crossing arcs for which the oracle loses an arc (C75_crossing_check_suffices_false). The oracle is proved correct under full projectivity in C47."},
{"property": "C76", "status": "proved", "theorems": ["Props.C76_samples_aligned"], "note": ""},
{"property": "C77", "status": "proved", "theorems": ["Props.C77_node_contents"], "note": ""},
{"property": "C78", "status": "partial", "theorems": ["Props.C78_flat_partial", "Props.C78_words_kept_partial", "Props.C78_words_kept_false", "Props.C78_words_kept_particle_false"], "note": "False of the code: two flat words below the same word, or a flat expression with a particle, lose words (C78_words_kept_false, C78_words_kept_particle_false). C78_words_kept_partial covers tokens without flat arcs, C78_flat_partial flat expressions of any length in which each further token is attached to the one before."},
{"property": "C79", "status": "proved", "theorems": ["Props.C79_node_tree_acyclic"], "note": ""},
{"property": "C80", "status": "proved", "theorems": ["Props.C80_sentence_tuples"], "note": ""},
{"property": "C81", "status": "proved", "theorems": ["Props.C81_sanitized"], "note": ""},
{"property": "C82", "status": "partial", "theorems": ["Props.C82_pilcrow_false", "Props.C82_no_pilcrow_partial"], "note": "False of the code: the pilcrow sticks to a word that follows the quote without a blank, and stays as a token inside brackets (C82_pilcrow_false). C82_no_pilcrow_partial: true of texts without .\" under the conditions of C83."},
{"property": "C83", "status": "partial", "theorems": ["Props.C83_conserves_partial", "Props.C83_conserves_false"], "note": "False in general for the reasons of C74 (C83_conserves_false). C83_conserves_partial: exact for every text without marker characters, underscores, NSD, NSGE, NSLE, \"www.\", digits next to quotes and star runs whose slashes are away from dots, other slashes and abbreviations of \"and\" (Spec.Writing)."},
{"property": "C84", "status": "partial", "theorems": ["Props.C84_lines", "Props.C84_marker_false", "Props.C84_numbers_false", "Props.C84_line_by_line_partial", "Props.C84_line_groups_partial"], "note": "False of the code: the number of a quote may show up in a protected text, and it counts the quotes of the lines before (C84_numbers_false); with marker characters in the text, a line that looks like a marker takes its text from another line (C84_marker_false). C84_line_by_line_partial: exact for every text without double quotes, opening brackets and opening markers. C84_line_groups_partial: with quotes and brackets each line has its own sentences that conserve it, under the conditions of C83."},
{"property": "C85", "status": "partial", "theorems": ["Props.C85_last_line_false", "Props.C85_empty_quote_false", "Props.C85_empty_bracket_false", "Props.C85_pilcrow_false", "Props.C85_tokens_partial"], "note": "False of the code: a trailing line break, an empty quote or bracket give empty tokens, and a pilcrow gives an empty sentence (C85_last_line_false, C85_empty_quote_false, C85_empty_bracket_false, C85_pilcrow_false). C85_tokens_partial: true whatever else is in the text."},
{"property": "C86", "status": "proved", "theorems": ["Props.C86_load_dict_raises", "Props.C86_load_dict_rows", "Props.C86_load_dict_written", "Props.C86_load_set_written", "Props.C86_load_set", "Props.C86_blank_line"], "note": "C86_load_dict_raises, C86_load_dict_rows, C86_load_dict_written, C86_load_set, C86_load_set_written. Blank lines are not tolerated in tables: C86_blank_line."},
{"property": "C87", "status": "proved", "theorems": ["Props.C87_tables_load", "Props.C87_listed_forms", "Props.C87_prefixed_forms", "Props.C87_reversed", "Props.C87_past_participle", "Props.C87_round_trip"], "note": "The five data/english/irregular_*.txt files are copied line by line into Model/Lexicon.lean; theorems quantify over the language model, the lower-casing function and the word before a hyphen."},
{"property": "C88", "status": "partial", "theorems": ["Props.C88_uninflected_partial", "Props.C88_listed_lemmas_partial", "Props.C88_lemma_of_lemma_false", "Props.C88_base_form_false"], "note": "False of the code: fed has the lemma feed, whose lemma is fee with the shipped unigrams (C88_lemma_of_lemma_false), and pass becomes pas (C88_base_form_false). C88_uninflected_partial: words that are neither listed nor end like inflected words are their own lemmas. C88_listed_lemmas_partial: all lemmas of the shipped tables but six verbs are."},
{"property": "C89", "status": "partial", "theorems": ["Props.C89_readable", "Props.C89_errors", "Props.C89_read_partial", "Props.C89_no_root_false"], "note": "False of the code for sentences without ROOT, which are read as empty without any error (C89_no_root_false). C89_read_partial: true of sentences with a ROOT; C89_readable and C89_errors are exact for all sentences."},
{"property": "C90", "status": "proved", "theorems": ["Props.C90_ptags", "Props.C90_pdeps", "Props.C90_trans", "Props.C90_empty", "Props.C90_too_long", "Props.C90_trans_too_long"], "note": "random.shuffle is an arbitrary function that returns a permutation. C90_ptags, C90_pdeps, C90_trans: the columns; C90_too_long, C90_trans_too_long: exactly when extraction raises. A sentence without ROOT counts as empty (kept, see C89)."},
{"property": "C91", "status": "proved", "theorems": ["Props.C91_argmax", "Props.C91_predictions", "Props.C91_best", "Props.C91_codes"], "note": "The scores are an arbitrary function of the inputs into a linear order (no NaN). The shapes are those of the last layers of the networks; one score vector per parse holds because each mask has exactly one True (C49, C90_trans)."},
{"property": "C92", "status": "partial", "theorems": ["Props.C92_constructor", "Props.C92_mle", "Props.C92_mle_has_ngram", "Props.C92_mle_missing_order", "Props.C92_mkn_partial", "Props.C92_mkn_not_enough_data", "Props.C92_sentencizer_error", "Props.C92_mkn_words_partial", "Props.C92_mkn_lost_word_false"], "note": "Proved for maximum likelihood estimation whenever the texts have an n-gram of the highest order (otherwise KeyError, C92_mle_missing_order). For modified Kneser-Ney smoothing the claim is false (C92_mkn_lost_word_false): a word that never follows another one gets probability 0 and is not written. C92_mkn_partial gives what is known in general, C92_mkn_words_partial says that only such words are lost when no discount is negative. Both assume that no positive probability is written as zero (C27)."},
{"property": "C93", "status": "partial", "theorems": ["Props.C93_arcs_order_partial", "Props.C93_arcs_order_false"], "note": "False in general (C93_arcs_order_false: with two subjects of a copula the property is said of the one registered first). Proved when every token has at most one head and the dependents of a token under SUBJ, OBJ, PROP, MARK, AND and OR keep their order (SameArcs)."},
{"property": "C94", "status": "partial", "theorems": ["Props.C94_sample_partial", "Props.C94_no_root", "Props.C94_sample_false", "Props.C94_error_hidden"], "note": "False in general (C94_sample_false: the parser registers the left dependent next to the head first, the sample the leftmost one). Proved when no token has two left dependents under the same label among SUBJ, OBJ, PROP, MARK, AND and OR, for samples of at most 50 tokens. C94_no_root: a sample without root has no tuples. C94_error_hidden: whatever goes wrong in the thread, test_sample raises IndexError."},
{"property": "C95", "status": "partial", "theorems": ["Props.C95_process_partial", "Props.C95_same_tuples_partial", "Props.C95_parse_partial", "Props.C95_parse_tokens_partial", "Props.C95_long_first_false", "Props.C95_other_sentence_false"], "note": "False in general: sentences of more than 50 tokens are not resplit here. C95_long_first_false: a text of one such sentence is an IndexError; C95_other_sentence_false: if the first sentence is too long, its tokens are shown with the tags and tree of the second. Proved for texts with sentences of at most 50 tokens."},
{"property": "C96", "status": "proved", "theorems": ["Props.C96_save", "Props.C96_errors", "Props.C96_vectorize", "Props.C96_capitals", "Props.C96_ragged_kept"], "note": "C96_capitals: lines for words with capitals are kept but never used. C96_ragged_kept: sizes are not checked when saving, a short vector makes vectorize_sentence fail later."},
{"property": "C97", "status": "proved", "theorems": ["Props.C97_constructor", "Props.C97_files", "Props.C97_with_model", "Props.C97_end_to_end", "Props.C97_end_to_end_mkn"], "note": "The training texts and the texts given are ordinary in the sense of C71. For modified Kneser-Ney the training data must not be poor and no positive probability may be rounded to zero when written (C92). Networks are functions of scores of the shapes of C91; the network files themselves are not modelled."},
{"property": "C98", "status": "partial", "theorems": ["Props.C98_sentence_partial", "Props.C98_documents_partial", "Props.C98_reflexive_false"], "note": "Full statement refuted by C98_reflexive_false: \"themselves\" tagged NOUN with a compound. The partial results exclude heads of compounds whose lemma is one of the words argument finding looks for (PlainHeads)."},
{"property": "C99", "status": "proved", "theorems": ["Props.C99_sentence", "Props.C99_documents"], "note": ""},
{"property": "C100", "status": "proved", "theorems": ["Props.C100_only_polarity", "Props.C100_parsed", "Props.C100_affirmative", "Props.C100_left_out", "Props.C100_documents"], "note": ""},
{"property": "C101", "status": "proved", "theorems": ["Props.C101_none", "Props.C101_read", "Props.C101_injective", "Props.C101_leaf"], "note": ""},
{"property": "C102", "status": "proved", "theorems": ["Props.C102_scores", "Props.C102_parser", "Props.C102_vectors", "Props.C102_loaded"], "note": ""},
{"property": "C103", "status": "proved", "theorems": ["Props.C103_chosen", "Props.C103_prefixed", "Props.C103_unattested", "Props.C103_cases", "Props.C103_no_reading"], "note": ""},
{"property": "C104", "status": "partial", "theorems": ["Props.C104_round_trip_partial", "Props.C104_round_trip_false"], "note": "False of the code: tricked and untied are left as they are although trick and untie are known, since icked and ied after a consonant are only read as of -ic and -y (C104_round_trip_false). C104_round_trip_partial: true of verbs of three letters or more that do not end in ick, icke, ie or i after two letters, the last a consonant, or in a vowel, a doubled consonant and e."},
{"property": "C105", "status": "proved", "theorems": ["Props.C105_transitive", "Props.C105_intransitive", "Props.C105_recipient", "Props.C105_passive", "Props.C105_copula", "Props.C105_adjective", "Props.C105_agent", "Props.C105_relative", "Props.C105_relative_object", "Props.C105_bare_relative", "Props.C105_coordinated_verb", "Props.C105_documents"], "note": ""},
{"property": "C106", "status": "partial", "theorems": ["Props.C106_passive_partial", "Props.C106_negated_passive_false"], "note": "False of the code: \"Foxes are not baked by formats\" is reported as NTN(format, bake, fox) (C106_negated_passive_false). C106_passive_partial: true when the copula is not negated."},
{"property": "C107", "status": "partial", "theorems": ["Props.C107_reflexive_partial", "Props.C107_relative_false"], "note": "False of the code in relative clauses: \"Foxes who bake themselves\" is reported as NTO(fox, bake, who) (C107_relative_false). C107_reflexive_partial: true when the subject is no relative pronoun."},
{"property": "C108", "status": "proved", "theorems": ["Props.C108_clause_transitive", "Props.C108_clause_intransitive", "Props.C108_clause_property", "Props.C108_indirect", "Props.C108_participle", "Props.C108_participle_agent", "Props.C108_marked"], "note": ""},
{"property": "C109", "status": "partial", "theorems": ["Props.C109_verb_source", "Props.C109_meant_partial", "Props.C109_wanted_false"], "note": "False of the code for passive forms: \"Foxes do not want to bake formats\" is reported as NCL(format, be, baked) (C109_wanted_false). C109_verb_source and C109_meant_partial: true of active forms."},
{"property": "C110", "status": "proved", "theorems": ["Props.C110_documents", "Props.C110_two_calls"], "note": ""},
{"property": "C111", "status": "partial", "theorems": ["Props.C111_exact", "Props.C111_determined", "Props.C111_kept_partial", "Props.C111_kept_false", "Props.C111_no_epoch"], "note": "With Keras 2, when the epochs are used up before the patience, the weights left are those of the last epoch, not of the best (C111_kept_false). C111_kept_partial: true if training stopped early, if the last epoch is the best, or with Keras 3."},
{"property": "C112", "status": "partial", "theorems": ["Props.C112_round_trip_partial", "Props.C112_words_false", "Props.C112_round_trip_false"], "note": "False of the code: going, using, lying, tricking, sieves and pelves are left as they are (C112_words_false, C112_round_trip_false). C112_round_trip_partial: true for words whose forms are legible, a condition mostly on lengths."},
{"property": "C113", "status": "proved", "theorems": ["Props.C113_lines", "Props.C113_loads", "Props.C113_value_error", "Props.C113_known"], "note": ""},
{"property": "C114", "status": "proved", "theorems": ["Props.C114_passive", "Props.C114_clause_passive", "Props.C114_documents"], "note": ""},
{"property": "C115", "status": "partial", "theorems": ["Props.C115_voices_agree_partial", "Props.C115_voices_agree_false"], "note": "False of the code: \"Foxes are not baked by formats\" gives NTN(format, bake, fox) but NCL(fox, NOT be, baked), and \"No foxes and formats bake foxes\" gives NTN(fox, NOT bake, fox) but NCL(fox, be, baked) (C115_voices_agree_false). C115_voices_agree_partial: true when only verbs other than copulas are negated."},
{"property": "C116", "status": "proved", "theorems": ["Props.C116_top_ngrams", "Props.C116_next_word", "Props.C116_best_ngram", "Props.C116_best_token"], "note": ""},
{"property": "C117", "status": "partial", "theorems": ["Props.C117_next_words_partial", "Props.C117_longer_contexts_false", "Props.C117_negative_discount_false"], "note": "False of the code: in a small corpus with positive discounts the trigrams that begin with \"a a\" get 2017/600 together (C117_longer_contexts_false), and with a negative discount the bigrams after \"g\" get 3/2 (C117_negative_discount_false). C117_next_words_partial: true for contexts of one word when the discounts D2, D3 of order 2 are not negative."},
{"property": "C118", "status": "proved", "theorems": ["Props.C118_mle", "Props.C118_mkn"], "note": ""},
{"property": "C119", "status": "proved", "theorems": ["Props.C119_prose", "Props.C119_conserves"], "note": ""},
{"property": "C120", "status": "proved", "theorems": ["Props.C120_sentences", "Props.C120_grouping"], "note": ""},
{"property": "C121", "status": "partial", "theorems": ["Props.C121_contractions_false", "Props.C121_stable_partial"], "note": "False of the code for contracted verbs: \"they're\" becomes \"they\", \"'re\", and these become \"they\", \"'\", \"re\" (C121_contractions_false). C121_stable_partial: true of ordinary prose without contractions."},
{"property": "C122", "status": "partial", "theorems": ["Props.C122_twice_false", "Props.C122_twice_partial", "Props.C122_variants"], "note": "False of the code: \"promice\" becomes \"promise\" and this \"promize\" (C122_twice_false). C122_twice_partial: true of every word on which a family of spellings decides, apart from words in -ice, -ise, -yce, -yse that only the family ce/se decides."},
{"property": "C123", "status": "partial", "theorems": ["Props.C123_mle_partial", "Props.C123_mkn_refused", "Props.C123_mkn_false"], "note": "Proved for maximum likelihood models (C123_mle_partial). False for modified Kneser-Ney smoothing, which refuses every corpus in which each sentence occurs at least twice (C123_mkn_refused, witness C123_mkn_false)."},
{"property": "C124", "status": "proved", "theorems": ["Props.C124_counts"], "note": ""},
{"property": "C125", "status": "proved", "theorems": ["Props.C125_nouns", "Props.C125_shapes"], "note": ""},
{"property": "C126", "status": "proved", "theorems": ["Props.C126_wordings", "Props.C126_case"], "note": ""},
{"property": "C127", "status": "proved", "theorems": ["Props.C127_stated", "Props.C127_transitive", "Props.C127_intransitive", "Props.C127_silent"], "note": ""},
{"property": "C128", "status": "proved", "theorems": ["Props.C128_transitive", "Props.C128_stated", "Props.C128_same"], "note": ""},
{"property": "C129", "status": "proved", "theorems": ["Props.C129_same"], "note": ""},
{"property": "C130", "status": "proved", "theorems": ["Props.C130_exact", "Props.C130_transitive", "Props.C130_passive", "Props.C130_same"], "note": ""},
{"property": "C131", "status": "proved", "theorems": ["Props.C131_transitive", "Props.C131_intransitive", "Props.C131_copula"], "note": ""},
{"property": "C132", "status": "partial", "theorems": ["Props.C132_passive", "Props.C132_same_partial", "Props.C132_negated_false"], "note": "False of the code: \"Foxes do not bake formats\" gives NTN(fox, NOT bake, format), \"Formats are not baked by foxes\" gives NTN(fox, bake, format) (C132_negated_false; the same cause as C106). C132_same_partial: true of affirmative sentences. C132_passive: all tuples of a passive sentence with agent."},
{"property": "C133", "status": "proved", "theorems": ["Props.C133_order", "Props.C133_sentence", "Props.C133_rounds"], "note": ""},
{"property": "C134", "status": "proved", "theorems": ["Props.C134_lists"], "note": ""},
{"property": "C135", "status": "proved", "theorems": ["Props.C135_transitive", "Props.C135_intransitive", "Props.C135_copula"], "note": ""},
{"property": "C136", "status": "proved", "theorems": ["Props.C136_node_order", "Props.C136_no_repetition"], "note": ""},
{"property": "C137", "status": "proved", "theorems": ["Props.C137_copula"], "note": ""},
{"property": "C138", "status": "partial", "theorems": ["Props.C138_only_letters", "Props.C138_uppercase_start", "Props.C138_consonant_end", "Props.C138_lowercase_partial", "Props.C138_lowercase_false"], "note": "False of the code for has_only_lowercase_letters, which uses the regular expression of has_only_letters and accepts capital letters (C138_lowercase_false); C138_lowercase_partial says what it accepts. The three other functions are proved exact."},
{"property": "C139", "status": "proved", "theorems": ["Props.C139_recipient", "Props.C139_list"], "note": ""},
{"property": "C140", "status": "proved", "theorems": ["Props.C140_calling", "Props.C140_list"], "note": ""},
{"property": "C141", "status": "proved", "theorems": ["Props.C141_existence"], "note": ""},
{"property": "C142", "status": "proved", "theorems": ["Props.C142_adjectives"], "note": ""},
{"property": "C143", "status": "proved", "theorems": ["Props.C143_alone", "Props.C143_own", "Props.C143_clause"], "note": ""},
{"property": "C144", "status": "partial", "theorems": ["Props.C144_no_subject_false", "Props.C144_no_subject_partial"], "note": "False of the code: the subject of the verb stands for the missing subject of the clause, and its negation is counted for both, so that \"no foxes want to bake formats\" is reported as (fox, want, fox, bake, format) (C144_no_subject_false). C144_no_subject_partial gives the polarity of the code: that of verb, clause and object."}
]}
