# Axioms of the property theorems

Written by `tools/gen_axioms.py` from `#print axioms`.

## none

* `Props.C33_left_context_false`
* `Props.C67_empty`

## propext

* `Props.C11_xnor_error`
* `Props.C51_one_tag_per_token_false`
* `Props.C51_empty_partial`
* `Props.C55_fix_flips`
* `Props.C60_argument_keeps`
* `Props.C60_argument_tag`
* `Props.C60_argument_flatten`
* `Props.C60_tuple_code`
* `Props.C62_at_most_50`
* `Props.C86_blank_line`
* `Props.C90_empty`
* `Props.C92_constructor`
* `Props.C138_lowercase_false`

## propext, Classical.choice, Quot.sound

* `Props.C01_divide_list_partition`
* `Props.C02_divide_list_balanced`
* `Props.C02_divide_list_float`
* `Props.C02_divide_list_singletons`
* `Props.C02_divide_list_assertion`
* `Props.C03_make_batches`
* `Props.C04_run_multithreads_map`
* `Props.C05_run_multithreads_loses_items_false`
* `Props.C05_run_multithreads_exact_loss_partial`
* `Props.C06_tree_queries`
* `Props.C08_ancestors_via_cycle`
* `Props.C11_xnor_parity`
* `Props.C12_functionalize_roundtrip`
* `Props.C13_token_start`
* `Props.C13_vowel_double_consonant`
* `Props.C14_lemmatizer_order`
* `Props.C14_token_prefix`
* `Props.C15_time_string`
* `Props.C15_timer_laps`
* `Props.C15_timer_total`
* `Props.C17_extract_ngrams`
* `Props.C17_extract_ngrams_mem`
* `Props.C18_store_counts`
* `Props.C19_builder_counts`
* `Props.C19_builder_process_independent`
* `Props.C20_store_closed`
* `Props.C21_mle_probabilities`
* `Props.C21_mle_distribution`
* `Props.C21_mle_missing_order`
* `Props.C22_not_enough_data`
* `Props.C22_discounts`
* `Props.C23_wildcard_counts`
* `Props.C24_unigram_distribution`
* `Props.C25_mkn_formula`
* `Props.C25_mkn_value`
* `Props.C26_probabilities_false`
* `Props.C26_positive_discounts_false`
* `Props.C26_bigrams_partial`
* `Props.C27_write_load_partial`
* `Props.C27_rounding`
* `Props.C27_tiny_probability`
* `Props.C27_tiny_probability_false`
* `Props.C28_has_ngram`
* `Props.C28_contains`
* `Props.C28_rows`
* `Props.C29_best_ngram`
* `Props.C29_most_probable`
* `Props.C30_best_token`
* `Props.C31_top_ngrams`
* `Props.C31_membership`
* `Props.C31_nodup`
* `Props.C32_next_word`
* `Props.C32_continuations`
* `Props.C32_empty_text`
* `Props.C33_candidates_partial`
* `Props.C33_ends`
* `Props.C34_total`
* `Props.C34_known`
* `Props.C34_respelling`
* `Props.C34_decided`
* `Props.C34_empty`
* `Props.C34_unknown`
* `Props.C34_exact`
* `Props.C35_total`
* `Props.C35_blank_ngram_raises`
* `Props.C36_suffix`
* `Props.C37_sources`
* `Props.C37_empty_model`
* `Props.C37_multi_word_loses`
* `Props.C38_ignores_case`
* `Props.C38_same_lower`
* `Props.C38_other_tags`
* `Props.C39_irregular`
* `Props.C39_regular`
* `Props.C39_double_known`
* `Props.C39_shape`
* `Props.C40_suffix_overwritten`
* `Props.C41_parse_terminates`
* `Props.C41_parser_terminates`
* `Props.C41_parser_aligned`
* `Props.C42_parse_acyclic`
* `Props.C43_parse_projective`
* `Props.C44_parse_well_formed`
* `Props.C44_arc_labels`
* `Props.C44_predicted`
* `Props.C45_heads_partial`
* `Props.C46_batching_irrelevant`
* `Props.C47_oracle_terminates`
* `Props.C47_oracle_replays`
* `Props.C48_crossing_geometric`
* `Props.C48_crossing_symmetric`
* `Props.C48_have_crossing`
* `Props.C49_too_long`
* `Props.C49_word_kept`
* `Props.C50_codes`
* `Props.C50_padding_code_false`
* `Props.C51_tags_partial`
* `Props.C52_nodifier_total`
* `Props.C53_node_indexes`
* `Props.C53_node_in_parse`
* `Props.C54_chunks`
* `Props.C56_arguments_exact`
* `Props.C57_extraction_exact`
* `Props.C57_shapes`
* `Props.C58_only_second_negative`
* `Props.C58_parity`
* `Props.C58_shared_subject_cancels`
* `Props.C59_verbs_are_plain`
* `Props.C59_clause_verbs_are_plain`
* `Props.C59_intransitive_words`
* `Props.C59_passive_words`
* `Props.C60_argument_raises`
* `Props.C60_flatten_injective`
* `Props.C62_parser_never_raises`
* `Props.C63_aligned`
* `Props.C63_returns`
* `Props.C63_documents`
* `Props.C63_alone`
* `Props.C64_exact_loss_partial`
* `Props.C64_other_texts_lost_false`
* `Props.C64_positions_shift_false`
* `Props.C65_no_tree`
* `Props.C65_predictions`
* `Props.C65_short`
* `Props.C65_no_tuples`
* `Props.C65_empty_text`
* `Props.C67_tokens`
* `Props.C68_terminates`
* `Props.C68_rounds`
* `Props.C69_plain_words`
* `Props.C70_no_placeholder_partial`
* `Props.C70_placeholders_false`
* `Props.C70_symbols_false`
* `Props.C71_no_blocks_partial`
* `Props.C71_never_raises_false`
* `Props.C71_plain_text_raises_false`
* `Props.C71_returns_partial`
* `Props.C72_parts`
* `Props.C72_conserves`
* `Props.C72_enders`
* `Props.C73_quotes`
* `Props.C73_brackets`
* `Props.C74_conserves_false`
* `Props.C74_addresses_false`
* `Props.C74_conserves_partial`
* `Props.C74_slashes_false`
* `Props.C76_samples_aligned`
* `Props.C77_node_contents`
* `Props.C78_flat_partial`
* `Props.C78_words_kept_partial`
* `Props.C79_node_tree_acyclic`
* `Props.C80_sentence_tuples`
* `Props.C81_sanitized`
* `Props.C82_pilcrow_false`
* `Props.C82_no_pilcrow_partial`
* `Props.C83_conserves_partial`
* `Props.C83_conserves_false`
* `Props.C84_lines`
* `Props.C84_marker_false`
* `Props.C84_numbers_false`
* `Props.C84_line_by_line_partial`
* `Props.C84_line_groups_partial`
* `Props.C85_last_line_false`
* `Props.C85_empty_quote_false`
* `Props.C85_empty_bracket_false`
* `Props.C85_pilcrow_false`
* `Props.C85_tokens_partial`
* `Props.C86_load_dict_raises`
* `Props.C86_load_dict_rows`
* `Props.C87_listed_forms`
* `Props.C87_prefixed_forms`
* `Props.C87_past_participle`
* `Props.C87_round_trip`
* `Props.C88_uninflected_partial`
* `Props.C88_listed_lemmas_partial`
* `Props.C88_lemma_of_lemma_false`
* `Props.C88_base_form_false`
* `Props.C89_readable`
* `Props.C89_errors`
* `Props.C90_ptags`
* `Props.C90_pdeps`
* `Props.C90_trans`
* `Props.C90_too_long`
* `Props.C90_trans_too_long`
* `Props.C91_predictions`
* `Props.C92_mle`
* `Props.C92_mle_has_ngram`
* `Props.C92_mle_missing_order`
* `Props.C92_mkn_partial`
* `Props.C92_mkn_not_enough_data`
* `Props.C92_sentencizer_error`
* `Props.C92_mkn_words_partial`
* `Props.C92_mkn_lost_word_false`
* `Props.C93_arcs_order_partial`
* `Props.C93_arcs_order_false`
* `Props.C94_sample_partial`
* `Props.C94_no_root`
* `Props.C94_sample_false`
* `Props.C94_error_hidden`
* `Props.C95_process_partial`
* `Props.C95_same_tuples_partial`
* `Props.C95_parse_partial`
* `Props.C95_parse_tokens_partial`
* `Props.C95_long_first_false`
* `Props.C95_other_sentence_false`
* `Props.C96_save`
* `Props.C96_errors`
* `Props.C96_vectorize`
* `Props.C96_capitals`
* `Props.C96_ragged_kept`
* `Props.C97_constructor`
* `Props.C97_files`
* `Props.C97_with_model`
* `Props.C97_end_to_end`
* `Props.C97_end_to_end_mkn`
* `Props.C98_sentence_partial`
* `Props.C98_documents_partial`
* `Props.C98_reflexive_false`
* `Props.C99_sentence`
* `Props.C99_documents`
* `Props.C100_only_polarity`
* `Props.C100_parsed`
* `Props.C100_affirmative`
* `Props.C100_left_out`
* `Props.C100_documents`
* `Props.C101_none`
* `Props.C101_read`
* `Props.C101_injective`
* `Props.C101_leaf`
* `Props.C102_scores`
* `Props.C102_parser`
* `Props.C102_vectors`
* `Props.C102_loaded`
* `Props.C103_chosen`
* `Props.C103_prefixed`
* `Props.C103_unattested`
* `Props.C103_cases`
* `Props.C103_no_reading`
* `Props.C104_round_trip_partial`
* `Props.C104_round_trip_false`
* `Props.C105_transitive`
* `Props.C105_intransitive`
* `Props.C105_recipient`
* `Props.C105_passive`
* `Props.C105_copula`
* `Props.C105_adjective`
* `Props.C105_agent`
* `Props.C105_relative`
* `Props.C105_relative_object`
* `Props.C105_bare_relative`
* `Props.C105_coordinated_verb`
* `Props.C105_documents`
* `Props.C106_passive_partial`
* `Props.C106_negated_passive_false`
* `Props.C107_reflexive_partial`
* `Props.C107_relative_false`
* `Props.C108_clause_transitive`
* `Props.C108_clause_intransitive`
* `Props.C108_clause_property`
* `Props.C108_indirect`
* `Props.C108_participle`
* `Props.C108_participle_agent`
* `Props.C108_marked`
* `Props.C109_verb_source`
* `Props.C109_meant_partial`
* `Props.C109_wanted_false`
* `Props.C110_documents`
* `Props.C110_two_calls`
* `Props.C111_exact`
* `Props.C111_determined`
* `Props.C111_kept_partial`
* `Props.C111_kept_false`
* `Props.C111_no_epoch`
* `Props.C112_round_trip_partial`
* `Props.C112_words_false`
* `Props.C112_round_trip_false`
* `Props.C113_loads`
* `Props.C113_value_error`
* `Props.C113_known`
* `Props.C114_passive`
* `Props.C114_clause_passive`
* `Props.C114_documents`
* `Props.C115_voices_agree_partial`
* `Props.C115_voices_agree_false`
* `Props.C116_top_ngrams`
* `Props.C116_next_word`
* `Props.C116_best_ngram`
* `Props.C116_best_token`
* `Props.C117_next_words_partial`
* `Props.C117_longer_contexts_false`
* `Props.C117_negative_discount_false`
* `Props.C118_mle`
* `Props.C118_mkn`
* `Props.C119_prose`
* `Props.C119_conserves`
* `Props.C120_sentences`
* `Props.C121_contractions_false`
* `Props.C121_stable_partial`
* `Props.C122_twice_false`
* `Props.C122_twice_partial`
* `Props.C122_variants`
* `Props.C123_mle_partial`
* `Props.C123_mkn_refused`
* `Props.C123_mkn_false`
* `Props.C124_counts`
* `Props.C125_nouns`
* `Props.C125_shapes`
* `Props.C126_wordings`
* `Props.C126_case`
* `Props.C127_stated`
* `Props.C127_transitive`
* `Props.C127_intransitive`
* `Props.C127_silent`
* `Props.C128_transitive`
* `Props.C128_stated`
* `Props.C128_same`
* `Props.C129_same`
* `Props.C130_exact`
* `Props.C130_transitive`
* `Props.C130_passive`
* `Props.C130_same`
* `Props.C131_transitive`
* `Props.C131_intransitive`
* `Props.C131_copula`
* `Props.C132_passive`
* `Props.C132_same_partial`
* `Props.C132_negated_false`
* `Props.C133_order`
* `Props.C133_sentence`
* `Props.C133_rounds`
* `Props.C134_lists`
* `Props.C135_transitive`
* `Props.C135_intransitive`
* `Props.C135_copula`
* `Props.C136_node_order`
* `Props.C136_no_repetition`
* `Props.C137_copula`
* `Props.C138_uppercase_start`
* `Props.C138_consonant_end`
* `Props.C139_recipient`
* `Props.C139_list`
* `Props.C140_calling`
* `Props.C140_list`
* `Props.C141_existence`
* `Props.C142_adjectives`
* `Props.C143_alone`
* `Props.C143_own`
* `Props.C143_clause`
* `Props.C144_no_subject_false`
* `Props.C144_no_subject_partial`

## propext, Quot.sound

* `Props.C03_make_batches_nonpositive`
* `Props.C06_tree_views`
* `Props.C06_tree_consistent`
* `Props.C06_tree_total`
* `Props.C07_tree_enumeration`
* `Props.C08_ancestors_via`
* `Props.C08_ancestors_via_sound`
* `Props.C09_descendants_via`
* `Props.C09_descendants_via_sound`
* `Props.C10_siblings`
* `Props.C12_associate_roundtrip`
* `Props.C12_dissociate_sound`
* `Props.C12_attributes_roundtrip`
* `Props.C14_lemmatizer_prefixes`
* `Props.C14_token_prefix_order`
* `Props.C16_reverse_dict`
* `Props.C16_reverse_dict_inverse`
* `Props.C16_reverse_dict_total`
* `Props.C28_antitone`
* `Props.C33_candidates_dropped`
* `Props.C33_order_refused`
* `Props.C40_total`
* `Props.C40_canon`
* `Props.C40_frame`
* `Props.C40_adjective`
* `Props.C40_active_verb`
* `Props.C40_idempotent`
* `Props.C45_two_heads_false`
* `Props.C49_vectors`
* `Props.C49_masks`
* `Props.C49_wordset`
* `Props.C55_fix_effect`
* `Props.C55_fix_order`
* `Props.C55_fix_idempotent`
* `Props.C56_arguments_in_tree`
* `Props.C60_tuple_code_length`
* `Props.C60_tuple_arg`
* `Props.C60_has_any_arg_with_code`
* `Props.C61_document_concat`
* `Props.C62_resplit`
* `Props.C62_short_unchanged`
* `Props.C62_order`
* `Props.C66_single_spaced`
* `Props.C66_words`
* `Props.C66_idempotent`
* `Props.C66_fixed`
* `Props.C75_crossing_check_suffices_false`
* `Props.C78_words_kept_false`
* `Props.C78_words_kept_particle_false`
* `Props.C86_load_dict_written`
* `Props.C86_load_set_written`
* `Props.C86_load_set`
* `Props.C87_tables_load`
* `Props.C87_reversed`
* `Props.C89_read_partial`
* `Props.C89_no_root_false`
* `Props.C91_argmax`
* `Props.C91_best`
* `Props.C91_codes`
* `Props.C113_lines`
* `Props.C120_grouping`
* `Props.C138_only_letters`
* `Props.C138_lowercase_partial`
