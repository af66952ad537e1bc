{
 "claims": [
  {
   "property": "C01",
   "status": "proved",
   "theorems": [
    "Verif.C01_tokens_ordered"
   ],
   "note": ""
  },
  {
   "property": "C02",
   "status": "proved",
   "theorems": [
    "Verif.C02_permutation_independent"
   ],
   "note": ""
  },
  {
   "property": "C03",
   "status": "proved",
   "theorems": [
    "Verif.C03_sentences_partition"
   ],
   "note": ""
  },
  {
   "property": "C04",
   "status": "proved",
   "theorems": [
    "Verif.C04_accepts_iff",
    "Verif.C04_defaults",
    "Verif.C04_no_sentences",
    "Verif.C04_token_accepts",
    "Verif.C04_sentence_accepts",
    "Verif.C04_errors",
    "Verif.C04_validation_only_rejects"
   ],
   "note": "Accepts exactly the described inputs; defaults and the empty document separately; Token and Sentence constructors exactly; every failure of Document(...) is ValueError or, for tokens with an empty sentence list, IndexError (C04_errors); validation only rejects."
  },
  {
   "property": "C05",
   "status": "partial",
   "theorems": [
    "Verif.C05_refuted",
    "Verif.C05_multiword_numbered_partial",
    "Verif.C05_numbered_iff_first"
   ],
   "note": "False as stated (C05_refuted gives the witness); the partial theorem says what the check does guarantee, and C05_numbered_iff_first that the first token is the only exception."
  },
  {
   "property": "C06",
   "status": "proved",
   "theorems": [
    "Verif.C06_heads_agree"
   ],
   "note": ""
  },
  {
   "property": "C07",
   "status": "proved",
   "theorems": [
    "Verif.C07_validation_iff_forest",
    "Verif.C07_tree_heads"
   ],
   "note": "Sound and complete: validation accepts iff every sentence is headless or a tree."
  },
  {
   "property": "C08",
   "status": "proved",
   "theorems": [
    "Verif.C08_heads_same_token",
    "Verif.C08_head_edge_cases"
   ],
   "note": ""
  },
  {
   "property": "C09",
   "status": "proved",
   "theorems": [
    "Verif.C09_get_token",
    "Verif.C09_token_navigation",
    "Verif.C09_sentence_navigation"
   ],
   "note": ""
  },
  {
   "property": "C10",
   "status": "proved",
   "theorems": [
    "Verif.C10_from_document_structure",
    "Verif.C10_empty_list_drops_everything",
    "Verif.C10_accepts_iff",
    "Verif.C10_errors"
   ],
   "note": "For non-empty token lists, which is what the statement is about; the empty list is covered by C10_empty_list_drops_everything. Exact acceptance condition and exception kinds: C10_accepts_iff, C10_errors."
  },
  {
   "property": "C11",
   "status": "partial",
   "theorems": [
    "Verif.C11_refuted",
    "Verif.C11_rewrap_identity_partial"
   ],
   "note": "False in general (C11_refuted); the partial theorem gives the exact condition."
  },
  {
   "property": "C12",
   "status": "partial",
   "theorems": [
    "Verif.C12_token_equivalence",
    "Verif.C12_document_equivalence",
    "Verif.C12_refuted_token",
    "Verif.C12_refuted_document",
    "Verif.C12_equality_sees_everything_partial",
    "Verif.C12_equality_iff",
    "Verif.C12_sees_everything_when_roots_agree"
   ],
   "note": "Equivalence relation proved; the agreement half is false for the sentence head (C12_refuted_*), the rest is proved; C12_equality_iff says exactly what == decides, C12_sees_everything_when_roots_agree when the full claim holds."
  },
  {
   "property": "C13",
   "status": "proved",
   "theorems": [
    "Verif.C13_updates",
    "Verif.C13_last_wins",
    "Verif.C13_commute"
   ],
   "note": ""
  },
  {
   "property": "C14",
   "status": "proved",
   "theorems": [
    "Verif.C14_equality",
    "Verif.C14_hash",
    "Verif.C14_lt_defined",
    "Verif.C14_trichotomy",
    "Verif.C14_transitive"
   ],
   "note": ""
  },
  {
   "property": "C15",
   "status": "proved",
   "theorems": [
    "Verif.C15_extras_update"
   ],
   "note": "Values of extras are immutable atoms in the model, so aliasing of nested objects is not covered."
  },
  {
   "property": "C16",
   "status": "proved",
   "theorems": [
    "Verif.C16_accepts_iff",
    "Verif.C16_chunk_sizes",
    "Verif.C16_before_an_error"
   ],
   "note": "Acceptance is characterised exactly (grammar, grouping, constructor); sizes and counts follow; also what was yielded before an error."
  },
  {
   "property": "C17",
   "status": "proved",
   "theorems": [
    "Verif.C17_yielded_documents_valid"
   ],
   "note": ""
  },
  {
   "property": "C18",
   "status": "proved",
   "theorems": [
    "Verif.C18_text_from_forms",
    "Verif.C18_exceptions_needed"
   ],
   "note": "The two exceptions in the statement are shown to be needed."
  },
  {
   "property": "C19",
   "status": "proved",
   "theorems": [
    "Verif.C19_round_trip",
    "Verif.C19_round_trip_equal",
    "Verif.C19_spacing_needed"
   ],
   "note": "For any number of documents; C19_spacing_needed shows that the spacing condition of the second half is needed."
  },
  {
   "property": "C20",
   "status": "partial",
   "theorems": [
    "Verif.C20_refuted",
    "Verif.C20_blocks_partial",
    "Verif.C20_word_lines",
    "Verif.C20_once_iff"
   ],
   "note": "False in general (C20_refuted): a multiword token at the end of a sentence is written again in the next one. Proved when no sentence but the last ends in a multiword token; that condition is necessary (C20_once_iff), and C20_word_lines counts the repeated lines exactly."
  },
  {
   "property": "C21",
   "status": "proved",
   "theorems": [
    "Verif.C21_ten_columns"
   ],
   "note": ""
  },
  {
   "property": "C22",
   "status": "partial",
   "theorems": [
    "Verif.C22_refuted_fails",
    "Verif.C22_refuted_head",
    "Verif.C22_selection_partial",
    "Verif.C22_writes_iff",
    "Verif.C22_made_up_heads"
   ],
   "note": "False in general (C22_refuted_fails, C22_refuted_head). Proved for LEMMA, UPOS, XPOS, DEPREL, DEPS when FEATS is selected or no token has a part of speech; C22_writes_iff shows that writing fails exactly otherwise (TypeError), C22_made_up_heads what HEAD contains when it is not selected."
  },
  {
   "property": "C23",
   "status": "proved",
   "theorems": [
    "Verif.C23_unparsed_loads"
   ],
   "note": "Proved for any recursion limit of at least two calls."
  },
  {
   "property": "C24",
   "status": "proved",
   "theorems": [
    "Verif.C24_loaded_trees",
    "Verif.C24_accepts",
    "Verif.C24_negative_heads_accepted"
   ],
   "note": "HEADs of words inside multi-word tokens may be negative; C24_negative_heads_accepted shows that the restriction in the statement is needed. Acceptance needs sentences no longer than the recursion limit."
  },
  {
   "property": "C25",
   "status": "proved",
   "theorems": [
    "Verif.C25_spans_tile",
    "Verif.C25_words"
   ],
   "note": ""
  },
  {
   "property": "C26",
   "status": "proved",
   "theorems": [
    "Verif.C26_common_spans",
    "Verif.C26_swap"
   ],
   "note": ""
  },
  {
   "property": "C27",
   "status": "proved",
   "theorems": [
    "Verif.C27_monotone"
   ],
   "note": ""
  },
  {
   "property": "C28",
   "status": "proved",
   "theorems": [
    "Verif.C28_total"
   ],
   "note": "Termination is the absence of the out-of-fuel outcome."
  },
  {
   "property": "C29",
   "status": "proved",
   "theorems": [
    "Verif.C29_compatible"
   ],
   "note": ""
  },
  {
   "property": "C30",
   "status": "proved",
   "theorems": [
    "Verif.C30_longest",
    "Verif.C30_span_length"
   ],
   "note": ""
  },
  {
   "property": "C31",
   "status": "proved",
   "theorems": [
    "Verif.C31_self"
   ],
   "note": "Exact rationals instead of floats."
  },
  {
   "property": "C32",
   "status": "proved",
   "theorems": [
    "Verif.C32_bounded",
    "Verif.C32_ordered"
   ],
   "note": "Exact rationals instead of floats."
  },
  {
   "property": "C33",
   "status": "proved",
   "theorems": [
    "Verif.C33_span_matching"
   ],
   "note": ""
  },
  {
   "property": "C34",
   "status": "proved",
   "theorems": [
    "Verif.C34_round_trip",
    "Verif.C34_transform"
   ],
   "note": ""
  },
  {
   "property": "C35",
   "status": "proved",
   "theorems": [
    "Verif.C35_sound"
   ],
   "note": ""
  },
  {
   "property": "C36",
   "status": "proved",
   "theorems": [
    "Verif.C36_complete"
   ],
   "note": "Whole-word regular rules are excluded in the statement, as the trie never returns them."
  },
  {
   "property": "C37",
   "status": "partial",
   "theorems": [
    "Verif.C37_refuted",
    "Verif.C37_partial"
   ],
   "note": "False in general (C37_refuted): an exception is offered for every word whose longest known end is the excepted word. The partial theorem gives the exact condition."
  },
  {
   "property": "C38",
   "status": "proved",
   "theorems": [
    "Verif.C38_padding"
   ],
   "note": "Nested lists as values; aliasing of list objects is not modelled."
  },
  {
   "property": "C39",
   "status": "proved",
   "theorems": [
    "Verif.C39_leaves",
    "Verif.C39_total",
    "Verif.C39_only_value_error",
    "Verif.C39_none",
    "Verif.C39_union"
   ],
   "note": "Leaves with their wrapper chains (C39_leaves), totality (C39_total) and the features actually extracted (C39_union). Leaf extractors are arbitrary functions."
  },
  {
   "property": "C40",
   "status": "proved",
   "theorems": [
    "Verif.C40_disjoint_union"
   ],
   "note": ""
  },
  {
   "property": "C41",
   "status": "proved",
   "theorems": [
    "Verif.C41_inverse",
    "Verif.C41_no_features"
   ],
   "note": "Also when the collected lists are followed by padding; C41_no_features shows that the assumption of a name is needed."
  },
  {
   "property": "C42",
   "status": "proved",
   "theorems": [
    "Verif.C42_sparse",
    "Verif.C42_rate_zero"
   ],
   "note": "Random numbers are an arbitrary stream of rationals."
  },
  {
   "property": "C43",
   "status": "proved",
   "theorems": [
    "Verif.C43_vocabulary",
    "Verif.C43_word_id",
    "Verif.C43_subword_ids"
   ],
   "note": ""
  },
  {
   "property": "C44",
   "status": "partial",
   "theorems": [
    "Verif.C44_words_unknown",
    "Verif.C44_refuted",
    "Verif.C44_partial"
   ],
   "note": "False in general (C44_words_unknown, C44_refuted): the vocabulary is built from single characters. The partial theorem gives what holds for one-character words."
  },
  {
   "property": "C45",
   "status": "partial",
   "theorems": [
    "Verif.C45_partial",
    "Verif.C45_labels_in_range",
    "Verif.C45_predictions_rejected",
    "Verif.C45_predictions_decode",
    "Verif.C45_built",
    "Verif.C45_not_built",
    "Verif.C45_refuted"
   ],
   "note": "False with granular splitting if a feature is named UPOS or XPOS (C45_refuted); proved for everything else, with range theorems and totality of decoding (which holds for such features, too)."
  },
  {
   "property": "C46",
   "status": "proved",
   "theorems": [
    "Verif.C46_table",
    "Verif.C46_built"
   ],
   "note": ""
  },
  {
   "property": "C47",
   "status": "proved",
   "theorems": [
    "Verif.C47_round_trip",
    "Verif.C47_training_rules",
    "Verif.C47_any_label",
    "Verif.C47_label_in_range"
   ],
   "note": ""
  },
  {
   "property": "C48",
   "status": "proved",
   "theorems": [
    "Verif.C48_gold_not_masked"
   ],
   "note": ""
  },
  {
   "property": "C49",
   "status": "proved",
   "theorems": [
    "Verif.C49_characters",
    "Verif.C49_exact",
    "Verif.C49_no_lemma"
   ],
   "note": ""
  },
  {
   "property": "C50",
   "status": "proved",
   "theorems": [
    "Verif.C50_selected_epoch",
    "Verif.C50_selected_params",
    "Verif.C50_succeeds",
    "Verif.C50_missing_scores",
    "Verif.C50_no_epochs",
    "Verif.C50_seed_scores"
   ],
   "note": "Scores are exact rationals instead of floats."
  },
  {
   "property": "C51",
   "status": "proved",
   "theorems": [
    "Verif.C51_disposed",
    "Verif.C51_every_prefix"
   ],
   "note": ""
  },
  {
   "property": "C52",
   "status": "partial",
   "theorems": [
    "Verif.C52_refuted_unaligned",
    "Verif.C52_refuted_repeated",
    "Verif.C52_mean_partial",
    "Verif.C52_succeeds_iff",
    "Verif.C52_value_partial"
   ],
   "note": "False for metrics without aligned accuracy (Tokens, Sentences: TypeError) and for repeated metric names; the mean is proved for distinct metrics that have an aligned accuracy in every table. C52_succeeds_iff says exactly when averaging succeeds, C52_value_partial gives the result in all of these cases: the mean times the number of times the metric is listed."
  },
  {
   "property": "C53",
   "status": "proved",
   "theorems": [
    "Verif.C53_blind"
   ],
   "note": ""
  },
  {
   "property": "C54",
   "status": "partial",
   "theorems": [
    "Verif.C54_combinations",
    "Verif.C54_grid_partial",
    "Verif.C54_same_shape_partial",
    "Verif.C54_determined",
    "Verif.C54_refuted"
   ],
   "note": "False in general: a dictionary that replaces another kind of value is shared by all combinations (C54_refuted). Proved for grids in which this does not happen, in particular for grids of the shape of the base parameters."
  },
  {
   "property": "C55",
   "status": "proved",
   "theorems": [
    "Verif.C55_merge",
    "Verif.C55_error_iff",
    "Verif.C55_unique"
   ],
   "note": "Nesting deeper than the recursion limit is excluded."
  },
  {
   "property": "C56",
   "status": "proved",
   "theorems": [
    "Verif.C56_local_permutation",
    "Verif.C56_batches",
    "Verif.C56_size_rejected",
    "Verif.C56_every_pass"
   ],
   "note": "The random generator is an arbitrary stream; the data set is a list that can be read without exceptions."
  },
  {
   "property": "C57",
   "status": "proved",
   "theorems": [
    "Verif.C57_minibatches",
    "Verif.C57_determined",
    "Verif.C57_every_sentence",
    "Verif.C57_not_positive",
    "Verif.C57_mean_loss",
    "Verif.C57_no_sentences"
   ],
   "note": "Feature extraction and the optimiser are a parameter."
  },
  {
   "property": "C58",
   "status": "proved",
   "theorems": [
    "Verif.C58_formula",
    "Verif.C58_positive_nonincreasing",
    "Verif.C58_constant"
   ],
   "note": "Rates and accuracies are exact rationals. C58_formula gives the rate of every epoch; the decay compounds."
  },
  {
   "property": "C59",
   "status": "proved",
   "theorems": [
    "Verif.C59_tagged",
    "Verif.C59_any_prediction",
    "Verif.C59_no_outputs"
   ],
   "note": "Feature extraction and the network are a parameter that gives the predictions for a sentence. C59_any_prediction covers every prediction, C59_no_outputs shows the silent loss of all tokens when the network has no outputs."
  },
  {
   "property": "C60",
   "status": "proved",
   "theorems": [
    "Verif.C60_valid"
   ],
   "note": ""
  },
  {
   "property": "C61",
   "status": "proved",
   "theorems": [
    "Verif.C61_trainer",
    "Verif.C61_tagger",
    "Verif.C61_renamed"
   ],
   "note": "C61_trainer includes the error for a training set without tokens. C61_renamed: other names for the tags of the training data."
  },
  {
   "property": "C62",
   "status": "proved",
   "theorems": [
    "Verif.C62_compose",
    "Verif.C62_nested",
    "Verif.C62_with"
   ],
   "note": "Streams are consumed completely. Failing enter and exit are C87, iterators are C88."
  },
  {
   "property": "C63",
   "status": "proved",
   "theorems": [
    "Verif.C63_returned",
    "Verif.C63_itersents"
   ],
   "note": "The network is a table of predictions, in whatever order the batches were processed. C63_itersents: the rows handed to the network. How the library numbers the empty sentence that follows every document is not modelled; the theorem is about a table that numbers the sentences consecutively."
  },
  {
   "property": "C64",
   "status": "proved",
   "theorems": [
    "Verif.C64_words",
    "Verif.C64_input",
    "Verif.C64_identity",
    "Verif.C64_any_answer"
   ],
   "note": "The UDPipe model is an arbitrary function on sentences. C64_any_answer: an answer with missing words either fails or drops all tokens."
  },
  {
   "property": "C65",
   "status": "proved",
   "theorems": [
    "Verif.C65_attach",
    "Verif.C65_attach_same",
    "Verif.C65_feed",
    "Verif.C65_feed_predict",
    "Verif.C65_feed_unknown"
   ],
   "note": "Tensors and operations are a graph identity and a name."
  },
  {
   "property": "C66",
   "status": "proved",
   "theorems": [
    "Verif.C66_counts"
   ],
   "note": "Exact rationals instead of floats."
  },
  {
   "property": "C67",
   "status": "partial",
   "theorems": [
    "Verif.C67_refuted",
    "Verif.C67_partial"
   ],
   "note": "False in general (C67_refuted); proved for files with the same tokens in which every token has a word."
  },
  {
   "property": "C68",
   "status": "proved",
   "theorems": [
    "Verif.C68_wordwise",
    "Verif.C68_weighted"
   ],
   "note": "CLAS and WeightedLAS in C68_weighted."
  },
  {
   "property": "C69",
   "status": "proved",
   "theorems": [
    "Verif.C69_sorted",
    "Verif.C69_rule_order"
   ],
   "note": "C69_sorted: the sorted list of a set of rules. The ids of the label table are the subject of C113."
  },
  {
   "property": "C70",
   "status": "proved",
   "theorems": [
    "Verif.C70_fields",
    "Verif.C70_read",
    "Verif.C70_accepts",
    "Verif.C70_initial_values"
   ],
   "note": "The number parser is a parameter."
  },
  {
   "property": "C71",
   "status": "proved",
   "theorems": [
    "Verif.C71_bpe"
   ],
   "note": "The byte-pair model is a parameter."
  },
  {
   "property": "C72",
   "status": "proved",
   "theorems": [
    "Verif.C72_lemma_dictionary",
    "Verif.C72_unknown_lemma"
   ],
   "note": ""
  },
  {
   "property": "C73",
   "status": "proved",
   "theorems": [
    "Verif.C73_order_independent"
   ],
   "note": ""
  },
  {
   "property": "C74",
   "status": "proved",
   "theorems": [
    "Verif.C74_sentence_text"
   ],
   "note": ""
  },
  {
   "property": "C75",
   "status": "proved",
   "theorems": [
    "Verif.C75_selected_models_kept"
   ],
   "note": "The trainer is assumed to save each epoch before yielding it, as NeuralTaggerTrainer does."
  },
  {
   "property": "C76",
   "status": "proved",
   "theorems": [
    "Verif.C76_valid_loads",
    "Verif.C76_heads_needed"
   ],
   "note": "C76_heads_needed shows that the condition on heads cannot be dropped: validation accepts a head index below -1 that points before the document as a root."
  },
  {
   "property": "C77",
   "status": "proved",
   "theorems": [
    "Verif.C77_tag_scores"
   ],
   "note": ""
  },
  {
   "property": "C78",
   "status": "proved",
   "theorems": [
    "Verif.C78_accepts_iff",
    "Verif.C78_only_recursion",
    "Verif.C78_deep"
   ],
   "note": "HEADs are assumed non-negative in the equivalence (see C24)."
  },
  {
   "property": "C79",
   "status": "proved",
   "theorems": [
    "Verif.C79_perfect_iff"
   ],
   "note": ""
  },
  {
   "property": "C80",
   "status": "proved",
   "theorems": [
    "Verif.C80_line_content",
    "Verif.C80_accepts",
    "Verif.C80_unique"
   ],
   "note": ""
  },
  {
   "property": "C81",
   "status": "partial",
   "theorems": [
    "Verif.C81_check_partial",
    "Verif.C81_single_partial",
    "Verif.C81_refuted"
   ],
   "note": "False in general: only the first entry of each dictionary is looked at (C81_refuted). Proved: the exact condition for acceptance, and that values with a single setting do not overlap."
  },
  {
   "property": "C82",
   "status": "proved",
   "theorems": [
    "Verif.C82_every_order",
    "Verif.C82_small_data_set"
   ],
   "note": ""
  },
  {
   "property": "C83",
   "status": "proved",
   "theorems": [
    "Verif.C83_one_tagger_per_epoch",
    "Verif.C83_selected_tagger_is_stored",
    "Verif.C83_without_tester_refuted",
    "Verif.C83_empty_training_set"
   ],
   "note": "Saving and loading a tagger is assumed to keep its parameters and to raise nothing."
  },
  {
   "property": "C84",
   "status": "partial",
   "theorems": [
    "Verif.C84_epoch_order_partial",
    "Verif.C84_refuted"
   ],
   "note": "False for more than ten models: names are sorted as strings, epoch-10 comes before epoch-2 (C84_refuted). C84_epoch_order_partial shows that it holds exactly up to ten models."
  },
  {
   "property": "C85",
   "status": "partial",
   "theorems": [
    "Verif.C85_refuted",
    "Verif.C85_partial"
   ],
   "note": "False for stub, whose trainer returns bare taggers (C85_refuted); C85_partial covers the other methods."
  },
  {
   "property": "C86",
   "status": "proved",
   "theorems": [
    "Verif.C86_perfect"
   ],
   "note": ""
  },
  {
   "property": "C87",
   "status": "partial",
   "theorems": [
    "Verif.C87_refuted",
    "Verif.C87_refuted_exit",
    "Verif.C87_partial",
    "Verif.C87_failing_enter"
   ],
   "note": "False when entering or exiting raises (C87_refuted, C87_refuted_exit); proved otherwise."
  },
  {
   "property": "C88",
   "status": "partial",
   "theorems": [
    "Verif.C88_refuted",
    "Verif.C88_partial"
   ],
   "note": "False for iterators (C88_refuted: processors are entered and never applied nor exited); C88_partial for collections."
  },
  {
   "property": "C89",
   "status": "partial",
   "theorems": [
    "Verif.C89_erased",
    "Verif.C89_from_answer_partial"
   ],
   "note": "False: the words handed to UDPipe carry no heads, and the heads of the answer replace those of the tokens (C89_erased). C89_from_answer_partial: they survive if the model predicts them again."
  },
  {
   "property": "C90",
   "status": "partial",
   "theorems": [
    "Verif.C90_refuted",
    "Verif.C90_partial"
   ],
   "note": "False: AttributeError is raised, because the message refers to a name instances do not have (C90_refuted). C90_partial: an error is raised in any case and nothing is returned."
  },
  {
   "property": "C91",
   "status": "proved",
   "theorems": [
    "Verif.C91_same_predictions",
    "Verif.C91_own_graph"
   ],
   "note": "What a session computes is an arbitrary function of the values fed by name; saving keeps it (checkpoints are trusted)."
  },
  {
   "property": "C92",
   "status": "proved",
   "theorems": [
    "Verif.C92_load",
    "Verif.C92_lazy",
    "Verif.C92_once"
   ],
   "note": "Event traces of opening and closing sessions; C92_once: exactly one session per use."
  },
  {
   "property": "C93",
   "status": "partial",
   "theorems": [
    "Verif.C93_iff",
    "Verif.C93_refuted",
    "Verif.C93_registered",
    "Verif.C93_refuted_weights",
    "Verif.C93_unknown",
    "Verif.C93_partial"
   ],
   "note": "False: the registered task lemma_binary cannot be built (C93_refuted, C93_registered), nor dense tasks without the optional loss weights (C93_refuted_weights). C93_iff characterises all configurations that can be built (layers are abstracted to the variables they create and the sizes that must match); C93_partial: a family of ordinary configurations."
  },
  {
   "property": "C94",
   "status": "proved",
   "theorems": [
    "Verif.C94_fed",
    "Verif.C94_outputs",
    "Verif.C94_own_tensors"
   ],
   "note": "Layers are abstracted to the placeholders they read. C94_own_tensors: nothing that is fed or fetched shares a tensor."
  },
  {
   "property": "C95",
   "status": "partial",
   "theorems": [
    "Verif.C95_partial",
    "Verif.C95_refuted",
    "Verif.C95_refuted_iterator"
   ],
   "note": "False: the second call returns the providers of the tasks twice (C95_refuted) and one-shot iterables raise ValueError (C95_refuted_iterator). C95_partial: the first call, with collections."
  },
  {
   "property": "C96",
   "status": "proved",
   "theorems": [
    "Verif.C96_applicable",
    "Verif.C96_gold",
    "Verif.C96_none",
    "Verif.C96_documents"
   ],
   "note": "Scores are rational numbers and argmax any function that returns the position of a greatest element. At least one rule that fits the word must have a score above the least float (C96_applicable, C96_documents)."
  },
  {
   "property": "C97",
   "status": "proved",
   "theorems": [
    "Verif.C97_mean",
    "Verif.C97_padding",
    "Verif.C97_weighted",
    "Verif.C97_characters"
   ],
   "note": "The cross entropies of the words are arbitrary numbers; arithmetic is exact."
  },
  {
   "property": "C98",
   "status": "partial",
   "theorems": [
    "Verif.C98_average_refuted",
    "Verif.C98_characters_refuted",
    "Verif.C98_average_partial",
    "Verif.C98_characters_partial",
    "Verif.C98_cnn_refuted",
    "Verif.C98_rnn_refuted",
    "Verif.C98_attention_refuted",
    "Verif.C98_aggregation_partial"
   ],
   "note": "False for all: C98_average_refuted, C98_cnn_refuted, C98_rnn_refuted, C98_attention_refuted, C98_characters_refuted. C98_aggregation_partial: every aggregation depends on the word and the length of the longest word only; C98_average_partial: the mean is taken over the length of the longest word; C98_characters_partial: holds if some word is as long as max_word_length or the vector of the padding is zero."
  },
  {
   "property": "C99",
   "status": "proved",
   "theorems": [
    "Verif.C99_initialized",
    "Verif.C99_words",
    "Verif.C99_errors",
    "Verif.C99_distinct"
   ],
   "note": "TensorFlow scatter_update and embedding_lookup are modelled on lists of rows."
  },
  {
   "property": "C100",
   "status": "proved",
   "theorems": [
    "Verif.C100_file",
    "Verif.C100_columns",
    "Verif.C100_weighted",
    "Verif.C100_subtypes",
    "Verif.C100_negative_refuted"
   ],
   "note": "float is any function from strings to rational numbers or exceptions. C100_subtypes is about loaded treebanks, C100_negative_refuted shows that C24 cannot be extended to negative weights."
  },
  {
   "property": "C101",
   "status": "proved",
   "theorems": [
    "Verif.C101_report"
   ],
   "note": "Formatting of the numbers and argparse are not modelled."
  },
  {
   "property": "C102",
   "status": "partial",
   "theorems": [
    "Verif.C102_refused",
    "Verif.C102_safe",
    "Verif.C102_writes",
    "Verif.C102_kept",
    "Verif.C102_results",
    "Verif.C102_clean_partial",
    "Verif.C102_failure_refuted",
    "Verif.C102_again",
    "Verif.C102_predictions",
    "Verif.C102_predictions_apart"
   ],
   "note": "All is proved, the last part for successful runs (C102_clean_partial). A failing run leaves models behind and cannot be repeated (C102_failure_refuted, C102_again). rmtree is assumed to succeed."
  },
  {
   "property": "C103",
   "status": "proved",
   "theorems": [
    "Verif.C103_report",
    "Verif.C103_errors"
   ],
   "note": "Scores are rational numbers. The averaged scores are what the averager returns, see C52. The models on disk are stated for distinct seeds."
  },
  {
   "property": "C104",
   "status": "partial",
   "theorems": [
    "Verif.C104_same_pairs",
    "Verif.C104_partial",
    "Verif.C104_refuted",
    "Verif.C104_clas_refuted"
   ],
   "note": "Proved for files without multi-word tokens, and whenever both directions align the same words. False with multi-word tokens (C104_refuted), and for the aligned accuracy of CLAS (C104_clas_refuted)."
  },
  {
   "property": "C105",
   "status": "partial",
   "theorems": [
    "Verif.C105_own_column",
    "Verif.C105_corrections",
    "Verif.C105_clas_refuted"
   ],
   "note": "Proved for all scores but CLAS and the weighted score, for which correcting a relation can lower the score (C105_clas_refuted)."
  },
  {
   "property": "C106",
   "status": "partial",
   "theorems": [
    "Verif.C106_load",
    "Verif.C106_same_pairs",
    "Verif.C106_partial",
    "Verif.C106_between",
    "Verif.C106_refuted",
    "Verif.C106_twice_partial"
   ],
   "note": "Proved for files without multi-word tokens, and for any second files if the first files have the same tokens (no token without words), with non-negative HEADs. False if the tokens of the first files differ and there are multi-word tokens (C106_refuted). C106_twice_partial: files behind themselves."
  },
  {
   "property": "C107",
   "status": "proved",
   "theorems": [
    "Verif.C107_printed",
    "Verif.C107_without_tokens",
    "Verif.C107_forms_hidden",
    "Verif.C107_tags",
    "Verif.C107_order_shown"
   ],
   "note": "repr of strings is arbitrary; for C107_tags it must be self-delimiting and begin with a quote, as in Python. The constructor does not check tokens against the text; slices beyond the end are empty, as in Python."
  },
  {
   "property": "C108",
   "status": "proved",
   "theorems": [
    "Verif.C108_extras_stored",
    "Verif.C108_extras_fixed",
    "Verif.C108_item",
    "Verif.C108_update",
    "Verif.C108_pos_stored",
    "Verif.C108_pos_fixed",
    "Verif.C108_pos_shared"
   ],
   "note": "In a heap model; the value model of the other claims is justified by it. With mutable values inside the features of a part of speech the claim would be false (C108_pos_shared); the annotation of the constructor excludes them."
  },
  {
   "property": "C109",
   "status": "partial",
   "theorems": [
    "Verif.C109_invalid",
    "Verif.C109_safe",
    "Verif.C109_refused",
    "Verif.C109_partial"
   ],
   "note": "The refusals and the safety of the disk are proved for all grids. The report (C109_partial) is proved for grids that never put a dictionary in place of another value; for others the combinations influence each other (C54_refuted)."
  },
  {
   "property": "C110",
   "status": "partial",
   "theorems": [
    "Verif.C110_same_words",
    "Verif.C110_against_columns",
    "Verif.C110_gold_values",
    "Verif.C110_token_scores_partial",
    "Verif.C110_oracle",
    "Verif.C110_sorted_feats",
    "Verif.C110_empty_feats",
    "Verif.C110_refuted_feats",
    "Verif.C110_comments_needed"
   ],
   "note": "False for Feats and AllTags of a perfect tagger if the FEATS of the gold file are not in code point order (C110_refuted_feats); C110_oracle gives the exact condition, C110_sorted_feats when it holds. Everything else is proved. Line ends are the newline character (files are opened with universal newlines). The documents are read before the tagger runs."
  },
  {
   "property": "C111",
   "status": "proved",
   "theorems": [
    "Verif.C111_parser_scores",
    "Verif.C111_parser_scores_file",
    "Verif.C111_no_syntax"
   ],
   "note": "Documents that can be written and loaded as in C77."
  },
  {
   "property": "C112",
   "status": "partial",
   "theorems": [
    "Verif.C112_resave_partial",
    "Verif.C112_resave_equal_partial",
    "Verif.C112_last_word_needed",
    "Verif.C112_leading_space_needed",
    "Verif.C112_heads_needed",
    "Verif.C112_ends_needed"
   ],
   "note": "Holds if all words have heads and no sentence but the last of a document ends in a multiword token (same annotation, and the second save gives the same file), with equality if moreover the last word of a document is followed by a space and no form begins with whitespace.  Each condition is shown to be needed by a file for which the claim fails."
  },
  {
   "property": "C113",
   "status": "partial",
   "theorems": [
    "Verif.C113_rules_partial",
    "Verif.C113_lemmas_partial",
    "Verif.C113_refuted"
   ],
   "note": "False if two rules (lemmas) are equally frequent: id 0 goes to the first one (C113_refuted). Proved if one is more frequent than all others (C113_rules_partial, C113_lemmas_partial)."
  },
  {
   "property": "C114",
   "status": "partial",
   "theorems": [
    "Verif.C114_partial",
    "Verif.C114_first_partial",
    "Verif.C114_failure_partial",
    "Verif.C114_refuted"
   ],
   "note": "False after a failed call: its predictions stay and are mixed into the next call, even after exiting and entering again (C114_refuted). C114_partial: holds for every history in which no call within a session failed; C114_first_partial ties the first call to C63, C114_failure_partial: exceptions of the network are passed on."
  },
  {
   "property": "C115",
   "status": "partial",
   "theorems": [
    "Verif.C115_partial",
    "Verif.C115_refuted"
   ],
   "note": "False if entering fails: the session stays open and the object usable (C115_refuted). C115_partial: proved for every block if entering succeeds."
  },
  {
   "property": "C116",
   "status": "proved",
   "theorems": [
    "Verif.C116_parser_flag",
    "Verif.C116_tagger_flags",
    "Verif.C116_construct"
   ],
   "note": "C116_construct, for any flags with different names; the flags of both classes are shown to have different names. C116_parser_flag, C116_tagger_flags: the layer every flag stands for."
  },
  {
   "property": "C117",
   "status": "partial",
   "theorems": [
    "Verif.C117_load_refuted",
    "Verif.C117_missing_partial",
    "Verif.C117_ignored_refuted"
   ],
   "note": "False: loading never raises (C117_load_refuted) and reported failures change nothing (C117_ignored_refuted). C117_missing_partial: without a model AttributeError is raised exactly if a document has a sentence."
  },
  {
   "property": "C118",
   "status": "proved",
   "theorems": [
    "Verif.C118_composition",
    "Verif.C118_order_needed"
   ],
   "note": "C118_composition. C118_order_needed: without the normal form of features the claim fails."
  },
  {
   "property": "C119",
   "status": "partial",
   "theorems": [
    "Verif.C119_features",
    "Verif.C119_labels_partial",
    "Verif.C119_sparsifies",
    "Verif.C119_refuted"
   ],
   "note": "C119_features in full. Labels: C119_labels_partial; the dictionary of lemmas built from training data with a single lemma labels any other lemma with 1, outside the announced size (C119_refuted)."
  },
  {
   "property": "C120",
   "status": "proved",
   "theorems": [
    "Verif.C120_builds",
    "Verif.C120_shapes",
    "Verif.C120_initial"
   ],
   "note": "C120_builds, C120_shapes, C120_initial."
  },
  {
   "property": "C121",
   "status": "partial",
   "theorems": [
    "Verif.C121_partial",
    "Verif.C121_fewer_partial",
    "Verif.C121_refuted",
    "Verif.C121_refuted_repeated"
   ],
   "note": "False in two cases: with several seeds a metric that is compared but not printed makes the search fail (C121_refuted), and a metric listed repeatedly counts repeatedly (C121_refuted_repeated). Proved for metrics listed once if both runs succeed (C121_partial); C121_fewer_partial says when leaving out metrics lets the run succeed."
  },
  {
   "property": "C122",
   "status": "partial",
   "theorems": [
    "Verif.C122_line_ends",
    "Verif.C122_saved",
    "Verif.C122_partial",
    "Verif.C122_file_partial",
    "Verif.C122_refuted"
   ],
   "note": "False for annotations that contain carriage returns (C122_refuted). Proved for all others: C122_line_ends, C122_saved, C122_partial, C122_file_partial."
  },
  {
   "property": "C123",
   "status": "proved",
   "theorems": [
    "Verif.C123_succeeds_iff",
    "Verif.C123_unreadable",
    "Verif.C123_tagger",
    "Verif.C123_characters"
   ],
   "note": "C123_succeeds_iff, C123_unreadable, C123_tagger, C123_characters."
  },
  {
   "property": "C124",
   "status": "proved",
   "theorems": [
    "Verif.C124_builds",
    "Verif.C124_interpreter",
    "Verif.C124_no_labels",
    "Verif.C124_any_prediction",
    "Verif.C124_labels",
    "Verif.C124_oracle",
    "Verif.C124_training",
    "Verif.C124_unknown_refuted"
   ],
   "note": "C124_builds, C124_interpreter, C124_no_labels, C124_any_prediction, C124_labels, C124_oracle, C124_training; C124_unknown_refuted shows that the condition on the annotation is needed."
  },
  {
   "property": "C125",
   "status": "partial",
   "theorems": [
    "Verif.C125_partial",
    "Verif.C125_words",
    "Verif.C125_dilated_refuted",
    "Verif.C125_subwords_refuted"
   ],
   "note": "False for words near the end of a sentence under Dilated_CNN (C125_dilated_refuted) and with subwords if another sentence has a longer word (C125_subwords_refuted). C125_partial proves it in all other cases, C125_words without conditions for recurrent layers over word embeddings."
  },
  {
   "property": "C126",
   "status": "partial",
   "theorems": [
    "Verif.C126_window",
    "Verif.C126_window_exact",
    "Verif.C126_bilstm",
    "Verif.C126_sentence_cnn_refuted"
   ],
   "note": "C126_bilstm, C126_window, C126_window_exact. The part about BiLSTM_CNN is false: C126_sentence_cnn_refuted shows that its convolutions run over the components of the vector of one word."
  },
  {
   "property": "C127",
   "status": "proved",
   "theorems": [
    "Verif.C127_prediction",
    "Verif.C127_training",
    "Verif.C127_mean",
    "Verif.C127_each"
   ],
   "note": "C127_prediction, C127_training, C127_each, C127_mean."
  },
  {
   "property": "C128",
   "status": "proved",
   "theorems": [
    "Verif.C128_highway",
    "Verif.C128_skip",
    "Verif.C128_skip_sum",
    "Verif.C128_residual"
   ],
   "note": "C128_highway, C128_skip, C128_skip_sum, C128_residual."
  },
  {
   "property": "C129",
   "status": "partial",
   "theorems": [
    "Verif.C129_complete",
    "Verif.C129_missing_partial",
    "Verif.C129_test",
    "Verif.C129_printed",
    "Verif.C129_test_refuted",
    "Verif.C129_field_refuted",
    "Verif.C129_metric_refuted"
   ],
   "note": "Proved for all keys needed before the search: C129_missing_partial (and C129_complete: with all keys the run is the one of C101 to C104; C129_printed). False for a test set without path (C129_test, C129_test_refuted: noticed after the whole search, models stay), for misspelt fields (C129_field_refuted) and metrics (C129_metric_refuted: unnoticed with one epoch)."
  },
  {
   "property": "C130",
   "status": "partial",
   "theorems": [
    "Verif.C130_known",
    "Verif.C130_unknown",
    "Verif.C130_morfessor_refuted",
    "Verif.C130_reserved"
   ],
   "note": "C130_known and C130_unknown for all entries except the names of other arguments of the trainer, which are rejected (C130_reserved). The documented section Morfessor_subwords is ignored: C130_morfessor_refuted."
  },
  {
   "property": "C131",
   "status": "partial",
   "theorems": [
    "Verif.C131_at_once",
    "Verif.C131_required_partial",
    "Verif.C131_missing_partial",
    "Verif.C131_factor_refuted"
   ],
   "note": "C131_required_partial and C131_missing_partial for every needed entry (requiredPaths in Spec/HyperRequired.lean). The documented default of lr_decrease_factor does not exist: C131_factor_refuted, KeyError after an epoch without progress, with its model saved. C131_at_once: entries the constructors ask for are missed before any file is opened."
  },
  {
   "property": "C132",
   "status": "partial",
   "theorems": [
    "Verif.C132_documented_partial",
    "Verif.C132_trainable_refuted",
    "Verif.C132_thresholds",
    "Verif.C132_word_width",
    "Verif.C132_subword_width",
    "Verif.C132_no_vectors"
   ],
   "note": "C132_documented_partial for all documented configurations in which random subword vectors are trainable. trainable false is ignored for them: C132_trainable_refuted. C132_thresholds: fractional thresholds are compared as they are. C132_word_width, C132_subword_width: vectors are as long as those of the file; C132_no_vectors: a file without vectors is a TypeError."
  },
  {
   "property": "C133",
   "status": "proved",
   "theorems": [
    "Verif.C133_prediction",
    "Verif.C133_sentence",
    "Verif.C133_document",
    "Verif.C133_position",
    "Verif.C133_unpredicted"
   ],
   "note": "C133_prediction, C133_sentence, C133_document, C133_position; C133_unpredicted shows that what has no label is kept. Sparsification (training only) is left out."
  },
  {
   "property": "C134",
   "status": "proved",
   "theorems": [
    "Verif.C134_steps",
    "Verif.C134_features",
    "Verif.C134_labels",
    "Verif.C134_learned",
    "Verif.C134_fit"
   ],
   "note": "C134_steps, C134_features, C134_labels, C134_learned, C134_fit. The learning rate and the dropout probability, which are given to the network beside the labels, are left out."
  },
  {
   "property": "C135",
   "status": "proved",
   "theorems": [
    "Verif.C135_tag",
    "Verif.C135_lemma",
    "Verif.C135_kept",
    "Verif.C135_plain",
    "Verif.C135_scores",
    "Verif.C135_fitted"
   ],
   "note": "C135_tag, C135_lemma, C135_kept, C135_plain, C135_scores, C135_fitted. Segments of lemmas are those of an arbitrary segmenter that cuts lemmas into parts of them; lower-casing is an arbitrary function that adds neither tabs nor newlines. For granular splitting no feature may be called UPOS or XPOS (C45)."
  },
  {
   "property": "C136",
   "status": "partial",
   "theorems": [
    "Verif.C136_cnn",
    "Verif.C136_words",
    "Verif.C136_padding",
    "Verif.C136_rnn_partial",
    "Verif.C136_rnn_refuted",
    "Verif.C136_attention",
    "Verif.C136_concat"
   ],
   "note": "C136_cnn, C136_attention, C136_words, C136_padding, C136_concat: as documented (the padding of shorter words counts as subwords, C98). C136_rnn_partial: aggregation rnn is a max pooling; C136_rnn_refuted: it is never the documented sum of final states, since it has twice as many components. The average is the documented mean only for the longest words of a batch (C98_average_partial, C98_average_refuted)."
  },
  {
   "property": "C137",
   "status": "proved",
   "theorems": [
    "Verif.C137_best",
    "Verif.C137_trained"
   ],
   "note": "C137_best, C137_trained. One seed; with several seeds the averages are compared (C52, C103). Trained taggers: training data read from CoNLL-U, answers about at least one word of each document."
  },
  {
   "property": "C138",
   "status": "proved",
   "theorems": [
    "Verif.C138_features",
    "Verif.C138_distinct",
    "Verif.C138_tags",
    "Verif.C138_scores"
   ],
   "note": "C138_features, C138_distinct, C138_tags, C138_scores. That the network keeps to the sizes is a hypothesis about the answers (NetWithin); what layers compute is C125, C136. For granular splitting features named UPOS or XPOS are allowed."
  },
  {
   "property": "C139",
   "status": "proved",
   "theorems": [
    "Verif.C139_feed",
    "Verif.C139_labels"
   ],
   "note": "C139_feed, C139_labels. Documents may come in any order and may be a selection, but must be among the documents the extractors were built from; an example shows that other documents can fail."
  },
  {
   "property": "C140",
   "status": "proved",
   "theorems": [
    "Verif.C140_needed",
    "Verif.C140_enough",
    "Verif.C140_iff",
    "Verif.C140_file",
    "Verif.C140_gap"
   ],
   "note": "C140_needed, C140_enough, C140_iff, C140_file, C140_gap. For tags numbered as a whole (joint, xf) the condition on missing parts is sufficient; C140_gap shows that without it building can fail. Whether it fails then depends on which tags the sort compares, so there is no exact condition in terms of the data alone."
  },
  {
   "property": "C141",
   "status": "proved",
   "theorems": [
    "Verif.C141_models",
    "Verif.C141_trains",
    "Verif.C141_file"
   ],
   "note": "C141_models, C141_trains, C141_file. Each table is built from an iteration of its own over the shuffled data. The network (building, optimiser step, answers) is a parameter; that it does not raise is a hypothesis. Examples: three epochs over a file; a decay of -1 that fails in the second epoch; an empty file of vectors."
  },
  {
   "property": "C142",
   "status": "partial",
   "theorems": [
    "Verif.C142_partial",
    "Verif.C142_pass",
    "Verif.C142_list_refuted",
    "Verif.C142_generator_refuted"
   ],
   "note": "False as stated: a list has no hash and fails with lemma rules (C142_list_refuted), a generator fails in the second epoch at the latest (C142_generator_refuted). Proved for what has a hash: the rules are numbered once (C142_partial), by one of the iterations (C142_pass). That training succeeds for data sets that can be iterated over again is C141_trains."
  },
  {
   "property": "C143",
   "status": "partial",
   "theorems": [
    "Verif.C143_testers",
    "Verif.C143_one",
    "Verif.C143_partial",
    "Verif.C143_refuted",
    "Verif.C143_compared_refuted"
   ],
   "note": "False as stated for a list of seeds (C143_refuted, C143_compared_refuted). Proved for one seed (C143_one); for a list of seeds C143_partial says exactly which settings work: printed metrics need an aligned accuracy (not Tokens, Sentences, Words), and with several parameter sets the compared metrics must be printed. C143_testers: the tables of both testers are of the assumed form."
  },
  {
   "property": "C144",
   "status": "partial",
   "theorems": [
    "Verif.C144_partial",
    "Verif.C144_rare_refuted",
    "Verif.C144_uncached_refuted"
   ],
   "note": "False as stated: with a threshold, a word whose rule is rare is labelled with the most frequent rule, which its mask may hide (C144_rare_refuted). Proved for words whose rule is known, and rare ones get rule 0 (C144_partial); this needs the cache shared by both builders (C142_partial), without it shuffling could hide any rule (C144_uncached_refuted)."
  },
  {
   "property": "C145",
   "status": "proved",
   "theorems": [
    "Verif.C145_average"
   ],
   "note": "C145_average. Printed metrics are distinct metrics of the report; if one of them has no aligned accuracy the run does not end with a report (C143)."
  },
  {
   "property": "C146",
   "status": "partial",
   "theorems": [
    "Verif.C146_average",
    "Verif.C146_partial",
    "Verif.C146_file",
    "Verif.C146_shuffled_refuted",
    "Verif.C146_order"
   ],
   "note": "False as stated if the training set is shuffled: all trainings of a run share one shuffled data set whose generator moves on with every iteration, so the second seed gets other orders than in a run of its own (C146_shuffled_refuted: 5/6 instead of 1). Proved for trainings that depend on seed and parameters only (C146_average) and for shared data sets that are the same whenever they are iterated over (C146_partial); a file without shuffler is one (C146_file)."
  },
  {
   "property": "C147",
   "status": "partial",
   "theorems": [
    "Verif.C147_partial",
    "Verif.C147_seeds",
    "Verif.C147_tested",
    "Verif.C147_equal_refuted",
    "Verif.C147_equal_outcome"
   ],
   "note": "Proved as an equivalence with runs that keep all models in memory (C147_partial, C147_tested) if trainings with the same seed have the same results, in particular for different seeds and for trainings that depend on seed and parameters only (C147_seeds). False for equal seeds on a shuffled data set (C147_equal_refuted, C147_equal_outcome): their trainings differ (C146) and have the same directories, so a selected model can be gone (with --delete_after) or replaced by another one."
  },
  {
   "property": "C148",
   "status": "partial",
   "theorems": [
    "Verif.C148_draws",
    "Verif.C148_partial",
    "Verif.C148_clock_refuted",
    "Verif.C148_sparse_refuted"
   ],
   "note": "False as stated: a shuffler without seed takes the clock as seed (C148_clock_refuted), and sparsification draws from the generator of the process, which no seed reaches (C148_sparse_refuted). Proved if the shuffler has a seed or there is none, and no value is replaced at random (C148_partial), and for sparsification whenever the same values are replaced (C148_draws). That TensorFlow repeats its results for the same seed is assumed."
  },
  {
   "property": "C149",
   "status": "proved",
   "theorems": [
    "Verif.C149_prefix",
    "Verif.C149_behind",
    "Verif.C149_single",
    "Verif.C149_write",
    "Verif.C149_shards",
    "Verif.C149_open_refuted"
   ],
   "note": "C149_prefix, C149_behind, C149_single, C149_shards, C149_write; that the conditions are needed is C149_open_refuted."
  },
  {
   "property": "C150",
   "status": "partial",
   "theorems": [
    "Verif.C150_partial",
    "Verif.C150_one",
    "Verif.C150_negative_refuted"
   ],
   "note": "False for negative numbers in the column HEAD: with two sentences in a document, HEAD -1 in the second one can make its word a root, read alone the sentence is rejected (C150_negative_refuted). Proved for texts without negative heads (C150_partial) and for all texts that can be read sentence by sentence (C150_one). Spaces at the end of a sentence are not compared: after the last word of a document there is no space in the text (C18)."
  },
  {
   "property": "C151",
   "status": "partial",
   "theorems": [
    "Verif.C151_token_partial",
    "Verif.C151_document_partial",
    "Verif.C151_extras_refuted",
    "Verif.C151_order_refuted",
    "Verif.C151_rule",
    "Verif.C151_rule_printed_refuted"
   ],
   "note": "False as stated: extras are not represented (C151_extras_refuted), the order of features is, although it does not count (C151_order_refuted), and different lemma rules can be printed alike (C151_rule_printed_refuted). Proved: the representation of a token or document determines everything but the extras (C151_token_partial, C151_document_partial), that of a lemma rule determines it (C151_rule). Quoting of strings is an arbitrary function with the property of the repr of Python."
  },
  {
   "property": "C152",
   "status": "proved",
   "theorems": [
    "Verif.C152_clas",
    "Verif.C152_clas_file",
    "Verif.C152_weighted",
    "Verif.C152_hidden"
   ],
   "note": "C152_clas, C152_clas_file, C152_weighted; C152_hidden shows that a content word taken for a function word does not lower the precision. The conversion of numbers in the weights file is a parameter."
  },
  {
   "property": "C153",
   "status": "partial",
   "theorems": [
    "Verif.C153_first",
    "Verif.C153_order_partial",
    "Verif.C153_order_refuted",
    "Verif.C153_built_refuted"
   ],
   "note": "False as stated: if two values are equally frequent, the one that comes first has id 0, with every splitting (C153_order_refuted), and if only some words have a language-specific tag, it depends on the order whether the labels can be built at all (C153_built_refuted). Proved: what has id 0 (C153_first), and that the order does not matter if one value of each part is the most frequent one and the tags that are compared are present everywhere or nowhere (C153_order_partial). With the granular splitting features named UPOS or XPOS are excluded, as in C45."
  },
  {
   "property": "C154",
   "status": "proved",
   "theorems": [
    "Verif.C154_documents",
    "Verif.C154_white_space",
    "Verif.C154_text",
    "Verif.C154_updates",
    "Verif.C154_classes"
   ],
   "note": "C154_documents, C154_text, C154_updates, C154_classes."
  },
  {
   "property": "C155",
   "status": "proved",
   "theorems": [
    "Verif.C155_closed",
    "Verif.C155_unstarted",
    "Verif.C155_documents",
    "Verif.C155_lazy"
   ],
   "note": "C155_documents, C155_lazy, C155_closed; C155_unstarted is the case of an iterator that was never started. Garbage collection is not modelled."
  },
  {
   "property": "C156",
   "status": "proved",
   "theorems": [
    "Verif.C156_selected_epoch",
    "Verif.C156_selected_params",
    "Verif.C156_tie_refuted"
   ],
   "note": "C156_selected_epoch, C156_selected_params; that rounding can break a tie of several fields is C156_tie_refuted. Rounding is any function with relative error at most u (2 ^ -53 for double precision without underflow, which shares of words cannot reach); sum adds one number after the other, as in Python before 3.12."
  },
  {
   "property": "C157",
   "status": "proved",
   "theorems": [
    "Verif.C157_tags",
    "Verif.C157_lemmas",
    "Verif.C157_reachable"
   ],
   "note": "C157_tags, C157_lemmas, C157_reachable. The bounds are about files of the evaluation program; words of the test file are tagged blind."
  },
  {
   "property": "C158",
   "status": "proved",
   "theorems": [
    "Verif.C158_parse",
    "Verif.C158_order",
    "Verif.C158_eval",
    "Verif.C158_kept",
    "Verif.C158_grid",
    "Verif.C158_grid_kept_refuted"
   ],
   "note": "C158_parse, C158_order, C158_eval, C158_kept, C158_grid; that the grid search program keeps models without --delete_after is refuted by C158_grid_kept_refuted. argparse is modelled as in Python 3.7; messages and exit codes are left out."
  },
  {
   "property": "C159",
   "status": "proved",
   "theorems": [
    "Verif.C159_annotations",
    "Verif.C159_again",
    "Verif.C159_again_empty",
    "Verif.C159_last_wins",
    "Verif.C159_order",
    "Verif.C159_parsed",
    "Verif.C159_stub_parser",
    "Verif.C159_stub_tagger",
    "Verif.C159_stub_parsed",
    "Verif.C159_stub_twice",
    "Verif.C159_order_matters"
   ],
   "note": "C159_annotations, C159_again, C159_again_empty, C159_last_wins, C159_order, C159_parsed, C159_stub_parser, C159_stub_tagger, C159_stub_parsed, C159_stub_twice; C159_order_matters shows that taggers which set the same do not commute. A first tagger whose network says nothing drops all words (see C10), which is why the words must be kept."
  },
  {
   "property": "C160",
   "status": "partial",
   "theorems": [
    "Verif.C160_kept_partial",
    "Verif.C160_refuted"
   ],
   "note": "False (C160_refuted): columns that the network neither reads nor predicts are emptied. Proved (C160_kept_partial): exactly these columns are emptied, for all documents and orders of batches, and a column in which the network passes on what it was given is kept."
  },
  {
   "property": "C161",
   "status": "partial",
   "theorems": [
    "Verif.C161_order_partial",
    "Verif.C161_refuted"
   ],
   "note": "False (C161_refuted): with multi-word tokens and different tokenization words of one file can be aligned with words of the next, which depends on the order. Proved (C161_order_partial) for any number of files and any order, without multi-word tokens or with the same tokens in gold and system files."
  },
  {
   "property": "C162",
   "status": "partial",
   "theorems": [
    "Verif.C162_kept_partial",
    "Verif.C162_deleted",
    "Verif.C162_outside",
    "Verif.C162_equal_refuted"
   ],
   "note": "False for equal seeds on a shuffled data set (C162_equal_refuted): the second training replaces the models of the first one. Proved (C162_kept_partial) for seeds with different texts, for all trainings; runs with --delete_after (C162_deleted) and models elsewhere (C162_outside) for all seeds."
  },
  {
   "property": "C163",
   "status": "proved",
   "theorems": [
    "Verif.C163_scores",
    "Verif.C163_report"
   ],
   "note": "For all files, including those that the loader or the evaluation rejects: the report and the exceptions are equal."
  },
  {
   "property": "C164",
   "status": "proved",
   "theorems": [
    "Verif.C164_early",
    "Verif.C164_late",
    "Verif.C164_wrong",
    "Verif.C164_size",
    "Verif.C164_factor"
   ],
   "note": "What is read before the first epoch (C164_early), in the first epoch (C164_late) and the consequence for wrong entries (C164_wrong); C164_size says what is no size, C164_factor shows when the factor of the learning rate is found. That TensorFlow rejects negative sizes and sizes that are no whole numbers is part of the model."
  },
  {
   "property": "C165",
   "status": "proved",
   "theorems": [
    "Verif.C165_vocabularies",
    "Verif.C165_lemma_characters",
    "Verif.C165_unknown",
    "Verif.C165_all",
    "Verif.C165_rules",
    "Verif.C165_rules_more",
    "Verif.C165_right",
    "Verif.C165_forgotten"
   ],
   "note": "Vocabularies (C165_vocabularies, C165_lemma_characters, C165_unknown, C165_all); rules (C165_rules, C165_rules_more, C165_right); C165_forgotten is the exception with a witness."
  },
  {
   "property": "C166",
   "status": "partial",
   "theorems": [
    "Verif.C166_more",
    "Verif.C166_same",
    "Verif.C166_without",
    "Verif.C166_grid_partial",
    "Verif.C166_partial",
    "Verif.C166_shuffled_refuted"
   ],
   "note": "False if the training set is shuffled: all trainings of a run share one shuffled data set, so an additional parameter set in front gives the others other orders of the data (C166_shuffled_refuted: 2/3 instead of 1). Proved for trainings that depend on seed and parameters only (C166_more, C166_same, C166_without, C166_grid_partial) and for shared data sets that are the same whenever they are iterated over (C166_partial). C166_grid_partial is about grids that never put a dictionary in place of another value, see C54_refuted."
  },
  {
   "property": "C167",
   "status": "proved",
   "theorems": [
    "Verif.C167_hyper",
    "Verif.C167_epochs",
    "Verif.C167_rounds",
    "Verif.C167_longer",
    "Verif.C167_shuffled"
   ],
   "note": "The training (C167_epochs, C167_rounds, and C167_hyper for the entry epochs of the hyperparameters); runs (C167_longer: for one seed the tables are equal or both have a comparison score, for several seeds it is about the comparison scores of the averages, for distinct print_fields); shuffled data (C167_shuffled). That both runs end with a report is assumed, see C141 and C143."
  },
  {
   "property": "C168",
   "status": "proved",
   "theorems": [
    "Verif.C168_may_add",
    "Verif.C168_more",
    "Verif.C168_order",
    "Verif.C168_matrix"
   ],
   "note": "C168_may_add says which lines may be added; C168_more compares vectors and numbers; C168_matrix the rows of the initialized matrices (under the conditions of C99, established by C99_initialized); C168_order is about the order of the lines."
  },
  {
   "property": "C169",
   "status": "partial",
   "theorems": [
    "Verif.C169_best_partial",
    "Verif.C169_share",
    "Verif.C169_single",
    "Verif.C169_lemmas",
    "Verif.C169_upos_refuted"
   ],
   "note": "False for the universal tags alone (C169_upos_refuted: of three nouns in different cases and two verbs the verb is chosen). Proved for whole tags (C169_best_partial, C169_share, C169_single) and lemmas (C169_lemmas, for all documents)."
  },
  {
   "property": "C170",
   "status": "partial",
   "theorems": [
    "Verif.C170_written_partial",
    "Verif.C170_blind",
    "Verif.C170_scores_partial",
    "Verif.C170_roots",
    "Verif.C170_stub",
    "Verif.C170_trained",
    "Verif.C170_refuted",
    "Verif.C170_tagger_respects",
    "Verif.C170_trained_respects",
    "Verif.C170_parser_respects",
    "Verif.C170_pipeline",
    "Verif.C170_train",
    "Verif.C170_train_tag",
    "Verif.C170_udpipe_respects"
   ],
   "note": "False for documents with a sentence head below -1 that leads to the root of the document (C170_refuted). Proved where roots of the document are roots of their sentences (C170_written_partial, C170_scores_partial), which holds for all documents without sentence heads below -1 (C170_roots); without any restriction for documents given to a tagger (C170_blind) and for the answers of the stub tagger and of trained taggers (C170_stub, C170_trained), and for the training of the stub tagger (C170_train, C170_train_tag); C170_tagger_respects, C170_trained_respects, C170_parser_respects, C170_udpipe_respects (models that answer with one word per word) and C170_pipeline for pipelines."
  },
  {
   "property": "C171",
   "status": "partial",
   "theorems": [
    "Verif.C171_settings_partial",
    "Verif.C171_check",
    "Verif.C171_order_partial",
    "Verif.C171_report_partial",
    "Verif.C171_name_partial",
    "Verif.C171_order_refuted"
   ],
   "note": "False if two names of the grid are about the same setting, which the check can miss (C171_order_refuted), and where a dictionary meets another value (C54_refuted). Proved for names about different settings whose values have the shape of the base file: the settings of every parameter set (C171_settings_partial), the order of the names (C171_order_partial, C171_report_partial; C171_check for all grids), further names (C171_name_partial)."
  },
  {
   "property": "C172",
   "status": "proved",
   "theorems": [
    "Verif.C172_tagger",
    "Verif.C172_parser",
    "Verif.C172_udpipe",
    "Verif.C172_trained",
    "Verif.C172_test_data",
    "Verif.C172_pipeline",
    "Verif.C172_parts",
    "Verif.C172_order",
    "Verif.C172_not_vacuous"
   ],
   "note": "C172_tagger, C172_parser, C172_udpipe, C172_trained and C172_test_data for the processors, C172_pipeline for pipelines, C172_parts and C172_order for lists in parts and in other orders. The graph-based parser works on all documents at once and is not meant here; see C63 and C114 for it. C172_not_vacuous shows a processor without the property."
  },
  {
   "property": "C173",
   "status": "proved",
   "theorems": [
    "Verif.C173_coarser",
    "Verif.C173_renamed",
    "Verif.C173_relations",
    "Verif.C173_testers"
   ],
   "note": "C173_renamed: all scores, and the error for files with different text; C173_coarser: for any mapping. FEATS are the features that are compared, i.e. the universal ones in order, and words are compared after loading. C173_relations: other names for relations. C173_testers: the same for the scores that the testers count."
  }
 ]
}