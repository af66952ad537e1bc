{"id": "C01", "title": "Tokens of a document are ordered and never overlap", "statement": "If Document(text, tokens, sentences) succeeds, then the tokens it exposes are exactly the given ones (up to order and filled-in heads), and for any two positions i<j (not only neighbours) either token i ends at or before the start of token j, or both cover the same span and token i has the smaller sub_index; in particular no two tokens intersect.", "quantifier": "every text, every token list in any order, every sentence list, every pair of positions", "why_tests_cant": "the constructor only compares neighbours after sorting; that this forbids every overlapping pair is a statement about all token lists", "anchors": ["babylondigger/datamodel.py:_WordList.__init__", "babylondigger/datamodel.py:_check_for_sequence", "babylondigger/datamodel.py:Token.intersects"]}
{"id": "C02", "title": "Document construction does not depend on the order of its arguments", "statement": "Permuting the token list and the sentence list passed to Document(...) changes neither whether construction succeeds nor the resulting document.", "quantifier": "every text, every token list and sentence list and every permutation of both, with or without syntax validation", "why_tests_cant": "factorially many permutations, and equal sort keys must be shown to be rejected rather than ordered arbitrarily", "anchors": ["babylondigger/datamodel.py:Document.__init__", "babylondigger/datamodel.py:_WordList.__init__"]}
{"id": "C03", "title": "Sentences partition the tokens", "statement": "In every successfully built document the sentence boundaries tile 0..tokens_count: the first starts at 0, each next one starts where the previous ends, the last ends at tokens_count, none is empty; every get_sentence(i) succeeds and returns exactly that slice, and concatenating the sentences' tokens gives the document's tokens.", "quantifier": "every successfully built document, every sentence index", "why_tests_cant": "ranges over all documents; get_sentence re-runs the token checks and could raise for some document", "anchors": ["babylondigger/datamodel.py:Document.__init__", "babylondigger/datamodel.py:Document.get_sentence", "babylondigger/datamodel.py:NavigableSentence.__init__"]}
{"id": "C04", "title": "Construction accepts exactly the well-formed inputs", "statement": "For a non-empty token list with constructible sentences and consistent heads, Document(...) without syntax validation succeeds if and only if the sorted tokens do not overlap, multiword groups are numbered without gaps after the first token, and the sorted sentences tile the tokens.", "quantifier": "every text, token list and sentence list", "why_tests_cant": "rejection of every malformed input and acceptance of every well-formed one is a universally quantified equivalence", "anchors": ["babylondigger/datamodel.py:Document.__init__", "babylondigger/datamodel.py:_skipped_token", "babylondigger/datamodel.py:_check_for_sequence"]}
{"id": "C05", "title": "Multiword tokens are numbered 0,1,2,... without gaps", "statement": "In a built document the words of every multiword token carry sub_index 0,1,2,... in order.", "quantifier": "every successfully built document, every multiword token in it", "why_tests_cant": "the check only looks at neighbours, so the claim needs induction over the token list; and it silently does not cover the first token", "anchors": ["babylondigger/datamodel.py:_skipped_token", "babylondigger/datamodel.py:_WordList.__init__"]}
{"id": "C06", "title": "Document-level and sentence-level heads agree", "statement": "In a built document each token that has a head and is not a root has both head views filled, and document head = sentence head + start of its sentence; tokens without head stay without head; tokens marked root in both views stay root in both views.", "quantifier": "every built document and every token, however the heads were specified (document view, sentence view, both, mixed)", "why_tests_cant": "three notations per token give exponentially many mixtures over all documents", "anchors": ["babylondigger/datamodel.py:Token.fill_heads", "babylondigger/datamodel.py:_WordList.__fill_token_heads"]}
{"id": "C07", "title": "Syntax validation accepts exactly forests of single-rooted trees", "statement": "Document(..., validate_syntax=True) accepts a document iff in every sentence either no token has a head, or every token has a head, exactly one token is a root, all other heads lie inside the sentence and following heads from any token reaches the root (no cycles).", "quantifier": "every document, sentences of any length, any head assignment", "why_tests_cant": "the number of head assignments grows as n^n; the colouring walk must be proved to detect every cycle and never to reject a tree", "anchors": ["babylondigger/datamodel.py:Document.__validate_syntax"]}
{"id": "C08", "title": "A token's head is the same token in both views", "statement": "In a document accepted with validate_syntax=True, for every token that has a head and is not root, sentence.get_token(i).head is the token at the same document position as document.get_token(start+i).head.", "quantifier": "every validated document, every sentence, every token", "why_tests_cant": "depends on the head arithmetic for every sentence offset", "anchors": ["babylondigger/datamodel.py:NavigableToken.head", "babylondigger/datamodel.py:NavigableToken.head_index", "babylondigger/datamodel.py:Document.get_sentence"]}
{"id": "C09", "title": "Navigation with next/previous visits neighbours and is inverse", "statement": "For every valid (possibly negative) index, get_token/get_sentence return an item at the Python-normalised position; next is None exactly at the last item, previous is None exactly at the first, and otherwise x.next.previous and x.previous.next are at the position of x; out-of-range indices raise IndexError.", "quantifier": "every container length and every integer index", "why_tests_cant": "all lengths and all integers, including negative and out-of-range ones", "anchors": ["babylondigger/datamodel.py:_NavigableItem", "babylondigger/datamodel.py:_WordList.get_token"]}
{"id": "C10", "title": "from_document replaces annotations and nothing else", "statement": "If Document.from_document(doc, tokens) succeeds with a non-empty token list then the new document has the same text, the same sentence boundaries, the same number of tokens and position-wise the same spans; if the given tokens miss, add or move a span it raises.", "quantifier": "every document and every (non-empty) list of replacement tokens in any order", "why_tests_cant": "all replacement lists; the code compares with zip, which silently ignores length mismatches", "anchors": ["babylondigger/datamodel.py:Document.from_document"]}
{"id": "C11", "title": "Re-wrapping a document's own tokens is the identity", "statement": "Document.from_document(doc, list(doc.tokens)) equals doc.", "quantifier": "every built document", "why_tests_cant": "fails only for specific head notations at specific sentence offsets", "anchors": ["babylondigger/datamodel.py:Document.from_document", "babylondigger/datamodel.py:Token.fill_heads"]}
{"id": "C12", "title": "Token and document equality", "statement": "Token == and Document == are reflexive, symmetric and transitive, and equal documents agree on text, sentence boundaries and every token field, including both head views.", "quantifier": "all pairs and triples of tokens and documents", "why_tests_cant": "equality must be right for all pairs; the implementation compares head_sentence_index with itself", "anchors": ["babylondigger/datamodel.py:Token.__eq__", "babylondigger/datamodel.py:Document.__eq__", "babylondigger/datamodel.py:_WordList.__eq__"]}
{"id": "C13", "title": "Functional token updates change only what they name", "statement": "with_morphology, with_syntax, with_extras and update_extras return a token that agrees with the original on every field they do not set; the last update of the same kind wins and updates of different kinds commute; they never raise on an existing token.", "quantifier": "every token and every argument", "why_tests_cant": "all tokens and all argument combinations", "anchors": ["babylondigger/datamodel.py:Token.with_morphology", "babylondigger/datamodel.py:Token.with_syntax", "babylondigger/datamodel.py:Token.with_extras", "babylondigger/datamodel.py:Token.update_extras"]}
{"id": "C14", "title": "Pos equality, hashing and ordering are consistent", "statement": "Two Pos values are equal iff they have equal upos, xpos and the same feature map regardless of insertion order; equal Pos have equal hashes; on Pos values whose tags are all present (no None) < is a strict total order compatible with ==.", "quantifier": "all pairs and triples of Pos values", "why_tests_cant": "order and hash laws quantify over all pairs and triples, and dictionaries over all insertion orders", "anchors": ["babylondigger/datamodel.py:Pos.__eq__", "babylondigger/datamodel.py:Pos.__lt__", "babylondigger/datamodel.py:Pos.__hash__"]}
{"id": "C15", "title": "TokenExtras behave as immutable right-biased maps", "statement": "extras.update(u)[k] is u[k] when k is in u and extras[k] otherwise; the key set is the union; the original extras object is unchanged by any update.", "quantifier": "all extras maps and all update dictionaries", "why_tests_cant": "all maps and keys", "anchors": ["babylondigger/datamodel.py:TokenExtras.update", "babylondigger/datamodel.py:TokenExtras.__getitem__"]}
{"id": "C16", "title": "Reader splits the input into documents of exactly the limit", "statement": "For an input the reader accepts, every yielded document has at most doc_sentences_limit sentences, every document but the last has exactly that many, no document is empty, and the number of sentences over all documents is the number of sentence-ending blank lines.", "quantifier": "every input text and every positive limit", "why_tests_cant": "all inputs and limits", "anchors": ["babylondigger/evaluation/conllu_io.py:CoNLLUReader._read"]}
{"id": "C17", "title": "Every document the reader yields is a valid document", "statement": "Every document yielded by CoNLLUReader satisfies the ordering, partition and tree properties (C01, C03, C07), whatever the input text is; bad input only ever raises.", "quantifier": "every input text, limit and column selection", "why_tests_cant": "all input texts", "anchors": ["babylondigger/evaluation/conllu_io.py:CoNLLUReader._read", "babylondigger/evaluation/conllu_io.py:_ReaderState.document"]}
{"id": "C18", "title": "Reader reconstructs the text from forms", "statement": "In every document the reader yields, the text is the concatenation of the surface forms in order, each followed by one space unless SpaceAfter is given; every token's doc_text is the FORM of its line (or of its multiword line), and space_after is what the line said (except on the last token of the document, where it is always true, and before a FORM that itself begins with white space).", "quantifier": "every accepted input", "why_tests_cant": "offset arithmetic over unboundedly many tokens", "anchors": ["babylondigger/evaluation/conllu_io.py:_ReaderState._process_token", "babylondigger/evaluation/conllu_io.py:_MultiWordReaderState._process_token"]}
{"id": "C19", "title": "Write then read gives the document back", "statement": "For documents built with syntax validation whose fields contain no tab/newline and no reserved '_' value, whose tokens all have pos and head, whose first token does not continue a multiword token, and in which no sentence but the last ends in a multiword token: writing them with CoNLLUWriter succeeds, and reading the output with CoNLLUReader (limit fitting the documents) yields as many documents with the same sentence boundaries, and for every token the same form, surface text, sub_index, lemma, upos, xpos, feats, head and deprel; if moreover the text is canonically spaced, the tokens have no extras and every root has document head -1, they are equal (==) to the originals.", "quantifier": "every such document, any number of sentences, tokens, features and multiword tokens", "why_tests_cant": "round-trip over an unbounded format; tests only sample a few documents", "anchors": ["babylondigger/evaluation/conllu_io.py:CoNLLUWriter", "babylondigger/evaluation/conllu_io.py:CoNLLUReader", "babylondigger/evaluation/conllu_io.py:to_conll", "babylondigger/evaluation/conllu_io.py:_line_parser"]}
{"id": "C20", "title": "Writer emits each token exactly once", "statement": "In the output of CoNLLUWriter every sentence block contains the sentence's words once each with IDs 1..n in order, each multiword group is preceded by one range line covering exactly its words, and every block ends in one blank line.", "quantifier": "every document", "why_tests_cant": "depends on writer state carried across sentence boundaries, which only shows for particular sentence endings", "anchors": ["babylondigger/evaluation/conllu_io.py:_MultiwordTokenWriterState.write_end_of_sentence", "babylondigger/evaluation/conllu_io.py:CoNLLUWriter.__write_CoNLL_U"]}
{"id": "C21", "title": "Every line the writer produces has ten columns", "statement": "Every non-blank line of the writer's output has exactly ten tab-separated columns and is neither blank nor a comment, provided no field value contains a tab or a newline.", "quantifier": "every document with tab/newline-free field values", "why_tests_cant": "all documents and field contents", "anchors": ["babylondigger/evaluation/conllu_io.py:to_conll", "babylondigger/evaluation/conllu_io.py:_format_line"]}
{"id": "C22", "title": "Writer honours the column selection", "statement": "CoNLLUWriter(columns) writes '_' in every column that is not selected and never fails because of the selection.", "quantifier": "every subset of columns, every document", "why_tests_cant": "2^n column subsets times all documents; some subsets crash", "anchors": ["babylondigger/evaluation/conllu_io.py:_column_extractors", "babylondigger/evaluation/conllu_io.py:to_conll"]}
{"id": "C23", "title": "Unparsed documents are written as loadable chains", "statement": "A sentence without heads is written with HEAD = 0,1,2,...; the evaluation loader accepts such output (single root, no cycle), so that evaluating a tagger on an unparsed document does not fail.", "quantifier": "every unparsed document with writable fields, any sentence lengths", "why_tests_cant": "all documents and lengths; the recursion in the loader must terminate", "anchors": ["babylondigger/evaluation/conllu_io.py:to_conll", "babylondigger/evaluation/conll17_ud_eval.py:load_conllu"]}
{"id": "C24", "title": "Loaded treebanks are single-rooted trees", "statement": "If load_conllu succeeds then in every sentence whose HEAD values are non-negative exactly one word has HEAD 0, every HEAD is at most the sentence length, and following HEAD from any word reaches the root; conversely a file whose lines are well-formed and whose sentences are such trees is accepted.", "quantifier": "every input text", "why_tests_cant": "all head assignments; cycle detection must be complete and sound", "anchors": ["babylondigger/evaluation/conll17_ud_eval.py:load_conllu"]}
{"id": "C25", "title": "Loaded token spans tile the characters", "statement": "After load_conllu succeeds the token spans are non-empty, start at 0, are contiguous and end at the number of characters; every word's span is the span of its token, word spans are non-decreasing, and sentence spans tile the same range.", "quantifier": "every input text the loader accepts", "why_tests_cant": "all inputs", "anchors": ["babylondigger/evaluation/conll17_ud_eval.py:load_conllu"]}
{"id": "C26", "title": "Token and sentence scores count common spans exactly", "statement": "The Tokens and Sentences metrics count exactly the spans present in both files (two-pointer merge finds each common span once), so precision and recall swap when gold and system are swapped.", "quantifier": "every pair of loaded treebanks", "why_tests_cant": "all pairs of segmentations", "anchors": ["babylondigger/evaluation/conll17_ud_eval.py:evaluate.spans_score"]}
{"id": "C27", "title": "Word alignment is a monotone one-to-one matching", "statement": "The aligned word pairs are strictly increasing on both sides, so no gold and no system word is used twice; the number of aligned words is at most the number of gold words and of system words.", "quantifier": "every pair of loaded treebanks over the same characters", "why_tests_cant": "all pairs; the alignment interleaves two loops with nested span search", "anchors": ["babylondigger/evaluation/conll17_ud_eval.py:evaluate.align_words"]}
{"id": "C28", "title": "evaluate terminates without internal errors on any pair of loaded treebanks", "statement": "For any two treebanks loaded by load_conllu evaluate either raises UDError because the characters differ or terminates with all metrics; in particular the alignment loops make progress and never index out of range.", "quantifier": "every pair of loaded treebanks", "why_tests_cant": "termination and absence of index errors for all inputs", "anchors": ["babylondigger/evaluation/conll17_ud_eval.py:evaluate"]}
{"id": "C29", "title": "Only compatible words are aligned", "statement": "Every aligned pair either consists of two non-multiword words with identical spans, or of two words with case-insensitively equal forms found inside one multiword span.", "quantifier": "every pair of loaded treebanks", "why_tests_cant": "all pairs", "anchors": ["babylondigger/evaluation/conll17_ud_eval.py:evaluate.align_words"]}
{"id": "C30", "title": "Alignment inside a multiword span is a longest common subsequence", "statement": "Within a multiword span the number of aligned words equals the length of a longest common subsequence of the lower-cased forms.", "quantifier": "every pair of word lists", "why_tests_cant": "optimality over all common subsequences", "anchors": ["babylondigger/evaluation/conll17_ud_eval.py:evaluate.compute_lcs", "babylondigger/evaluation/conll17_ud_eval.py:evaluate.align_words"]}
{"id": "C31", "title": "Evaluating a treebank against itself is perfect", "statement": "evaluate(t, t) gives precision = recall = F1 = aligned accuracy = 1 for every metric with a non-zero total.", "quantifier": "every treebank the loader accepts", "why_tests_cant": "all treebanks, including arbitrary multiword tokens", "anchors": ["babylondigger/evaluation/conll17_ud_eval.py:evaluate"]}
{"id": "C32", "title": "Scores are bounded and ordered", "statement": "For every pair with non-negative deprel weights all precisions, recalls, F1 scores and aligned accuracies lie in [0,1]; F1 lies between precision and recall; AllTags <= UPOS, XPOS, Feats <= Words and LAS <= UAS <= Words (as correct counts).", "quantifier": "every pair of loaded treebanks and every non-negative weight table", "why_tests_cant": "all pairs and weight tables", "anchors": ["babylondigger/evaluation/conll17_ud_eval.py:evaluate.alignment_score", "babylondigger/evaluation/conll17_ud_eval.py:evaluate.Score"]}
{"id": "C33", "title": "Without multiword tokens alignment is exact span matching", "statement": "If neither treebank has multiword tokens, two words are aligned iff they have the same character span.", "quantifier": "every pair of such treebanks", "why_tests_cant": "all pairs of tokenisations", "anchors": ["babylondigger/evaluation/conll17_ud_eval.py:evaluate.align_words"]}
{"id": "C34", "title": "A derived rule transforms the word to its lemma", "statement": "LemmaSuffixTransformation.get_rule(word, lemma) is applicable to word and transform(word) == lemma; the rule is marked exception exactly when word and lemma share no first character.", "quantifier": "every pair of strings", "why_tests_cant": "all strings", "anchors": ["babylondigger/lemmas/transformation_rules.py:LemmaSuffixTransformation.get_rule", "babylondigger/lemmas/transformation_rules.py:LemmaSuffixTransformation.transform"]}
{"id": "C35", "title": "Rules returned by the trie are applicable", "statement": "Every rule get_applicable_rules(word) returns was put into the trie with that index and its word_suffix is a suffix of word, so transform(word) never raises.", "quantifier": "every rule collection and every word", "why_tests_cant": "all rule sets and words", "anchors": ["babylondigger/lemmas/transformation_rules.py:LemmaTransformationTrie.get_applicable_rules"]}
{"id": "C36", "title": "The trie misses no regular rule and no matching exception", "statement": "Every regular rule whose word_suffix is a proper suffix of the word, and every exception whose word_suffix is the whole word, is returned exactly as often as it was inserted; regular rules equal to the whole word are not returned.", "quantifier": "every rule collection and every word", "why_tests_cant": "all rule sets and words", "anchors": ["babylondigger/lemmas/transformation_rules.py:LemmaTransformationTrie.build", "babylondigger/lemmas/transformation_rules.py:LemmaTransformationTrie.get_applicable_rules"]}
{"id": "C37", "title": "Exception rules are only offered for the exact word", "statement": "An exception rule is returned for a word only if its word_suffix equals the word.", "quantifier": "every rule collection and every word", "why_tests_cant": "depends on which other rules share the trie path", "anchors": ["babylondigger/lemmas/transformation_rules.py:LemmaTransformationTrie.get_applicable_rules"]}
{"id": "C38", "title": "Padding makes features rectangular and only appends padding", "statement": "After padding, all lists at the same nesting depth of a feature have equal length; every original value stays at its position and every added leaf is PADDING; features mixing lists and scalars at one level raise ValueError.", "quantifier": "every nested list of any depth and shape", "why_tests_cant": "all shapes and depths", "anchors": ["babylondigger/features/builder.py:_pad_sequence", "babylondigger/features/builder.py:PaddingFeatureExtractor"]}
{"id": "C39", "title": "Merging feature builders keeps every feature", "statement": "merge(builders) preserves the collection of leaf builders together with their chain of wrappers (empty builders are dropped only when others exist), so the merged extractor produces the union of the features.", "quantifier": "every non-empty list of builders with arbitrarily nested wrappers", "why_tests_cant": "recursive grouping by type over all builder trees", "anchors": ["babylondigger/features/builder.py:merge", "babylondigger/features/builder.py:CompositeFeatureExtractorBuilder.merge"]}
{"id": "C40", "title": "Composite extraction is a disjoint union", "statement": "CompositeFeatureExtractor returns the union of its parts' features and raises ValueError exactly when two parts produce the same key.", "quantifier": "every list of feature dictionaries", "why_tests_cant": "all lists of dictionaries", "anchors": ["babylondigger/features/builder.py:_merge_dicts"]}
{"id": "C41", "title": "Sequence interpretation inverts sequence extraction", "statement": "If every element produces the same non-empty set of feature names, IterableInterpreter hands to the element interpreter exactly the feature dictionary IterableFeatureExtractor collected for that element, in order, for all elements.", "quantifier": "every sequence and every per-element feature function with a constant key set", "why_tests_cant": "all sequences and key sets", "anchors": ["babylondigger/features/builder.py:IterableFeatureExtractor", "babylondigger/features/builder.py:IterableInterpreter"]}
{"id": "C42", "title": "Sparsification keeps shape and never invents ids", "statement": "_sparse_rate_sequence keeps the nesting shape and every leaf is either the original value or OOV, whatever the random numbers are; with rate 0 and positive random numbers it is the identity.", "quantifier": "every nested feature and every stream of random numbers", "why_tests_cant": "all shapes and all random streams", "anchors": ["babylondigger/features/builder.py:_sparse_rate_sequence"]}
{"id": "C43", "title": "Vocabulary ids stay inside the declared shape", "statement": "Every id emitted by the word, subword and character extractors is OOV/START/END or a vocabulary id >= 2 (resp. 4) that determines the word/subword uniquely, and is strictly smaller than the first component of the shape announced by the initializer.", "quantifier": "every training set, threshold, segmenter output and token", "why_tests_cant": "all vocabularies and tokens; an off-by-one would only appear as an out-of-range embedding lookup for some vocabularies", "anchors": ["babylondigger/features/extractors.py:WordEmbeddingFeatureExtractor", "babylondigger/features/extractors.py:SubwordFeatureExtractor", "babylondigger/features/extractors.py:TokenCharactersFeatureExtractorBuilder"]}
{"id": "C44", "title": "Frequent training words are never out of vocabulary", "statement": "With TrainableEmbeddingsExtractorBuilder every word that occurs at least min_frequency times in the training set gets its own id.", "quantifier": "every training set, threshold and lowercase setting", "why_tests_cant": "depends on letter case of all words", "anchors": ["babylondigger/features/extractors.py:TrainableEmbeddingsExtractorBuilder", "babylondigger/features/extractors.py:WordEmbeddingFeatureExtractor"]}
{"id": "C45", "title": "Part-of-speech labels decode to the encoded tag", "statement": "For every splitting strategy, interpreting the labels extracted from a training token gives back exactly its Pos and leaves lemma, syntax and span unchanged.", "quantifier": "every training set, every splitting strategy, every training token", "why_tests_cant": "all tag sets and feature combinations", "anchors": ["babylondigger/features/extractors.py:PosDictFeatureExtractorBuilder", "babylondigger/features/extractors.py:PosDictInterpreter", "babylondigger/features/extractors.py:PosGranularSplitter"]}
{"id": "C46", "title": "Label tables are bijections with the most frequent label first", "statement": "_id2obj lists every counted object above the threshold exactly once, with a most frequent object at index 0, and _obj2id is its inverse.", "quantifier": "every count table and threshold", "why_tests_cant": "all count tables", "anchors": ["babylondigger/features/extractors.py:_id2obj", "babylondigger/features/extractors.py:_obj2id"]}
{"id": "C47", "title": "Suffix-rule lemma labels decode to the lower-cased lemma", "statement": "For every token whose rule is in the table, interpreting its label yields lemma.lower(); for any label in range interpretation never raises and yields the transformed word or the lower-cased word.", "quantifier": "every training set, threshold and token, every string lower-casing function", "why_tests_cant": "all words and lemmas", "anchors": ["babylondigger/features/extractors.py:SuffixTransformationFeatureExtractor", "babylondigger/features/extractors.py:SuffixTransformationInterpreter"]}
{"id": "C48", "title": "The gold rule is never masked", "statement": "For every training token whose rule is in the rule table, the applicability vector has True at the index of that rule, and the vector's length is the number of rules.", "quantifier": "every training set, threshold and token", "why_tests_cant": "combines rule derivation, vocabulary and trie lookup for all words", "anchors": ["babylondigger/features/extractors.py:ApplicableSuffixTransformations", "babylondigger/features/extractors.py:CachedSuffixRulesBuilder"]}
{"id": "C49", "title": "Character-level lemma labels decode to the lemma", "statement": "Interpreting the character labels of a token gives the lemma's in-vocabulary characters among its first max_word_length-1 characters; hence the exact lemma when it is short enough and its characters are known; the label always has length max_word_length.", "quantifier": "every lemma, vocabulary and maximum length", "why_tests_cant": "all strings and lengths, including the truncation boundary", "anchors": ["babylondigger/features/extractors.py:LemmaCharExtractor", "babylondigger/features/extractors.py:LemmaCharInterpreter"]}
{"id": "C50", "title": "The selected epoch is the best one", "statement": "SingleSeedEvaluator returns the tagger of the earliest epoch whose comparison score is maximal over all epochs; ParametersEstimator likewise returns the earliest best parameter set, compared by the best score of the seed or the average of the best scores of all seeds.", "quantifier": "every sequence of scores of any length", "why_tests_cant": "all score sequences including ties", "anchors": ["babylondigger/evaluation/evaluation.py:SingleSeedEvaluator.evaluate", "babylondigger/evaluation/evaluation.py:ParametersEstimator.params_search", "babylondigger/evaluation/evaluation.py:score_comparator"]}
{"id": "C51", "title": "Exactly the models that are not selected are disposed", "statement": "After the loop every epoch (parameter set) other than the selected one has been passed to the disposal callback exactly once and the selected one never, at every intermediate point the current best is not disposed.", "quantifier": "every sequence of scores, every comparison function, every prefix of the run", "why_tests_cant": "all histories", "anchors": ["babylondigger/evaluation/evaluation.py:SingleSeedEvaluator.evaluate", "babylondigger/evaluation/evaluation.py:ParametersEstimator.params_search"]}
{"id": "C52", "title": "Averaging returns the mean of every metric", "statement": "get_metrics_averager(metrics)(scores) returns for each metric the arithmetic mean of precision, recall, F1 and aligned accuracy.", "quantifier": "every non-empty list of score tables and every metric list", "why_tests_cant": "all score lists; the None aligned accuracy of unaligned metrics is a special case", "anchors": ["babylondigger/evaluation/evaluation.py:get_metrics_averager"]}
{"id": "C53", "title": "A tester shows the tagger no gold annotation", "statement": "The documents a TaggerTester passes to the tagger have the same text, spans and sentence boundaries as the gold documents, but no token has pos, lemma, head or deprel; preparing them never raises.", "quantifier": "every gold document", "why_tests_cant": "all documents", "anchors": ["babylondigger/evaluation/evaluation.py:TaggerTester.__prepare_test_data"]}
{"id": "C54", "title": "Grid search enumerates every combination exactly once", "statement": "The list of hyperparameter dictionaries has one entry per element of the Cartesian product of the grid values, in order, each equal to the base parameters overridden by that combination.", "quantifier": "every grid and base parameters", "why_tests_cant": "all grids", "anchors": ["babylondigger/evaluation/grid_eval.py:__build_list_of_new_hyperparams", "babylondigger/evaluation/grid_eval.py:main"]}
{"id": "C55", "title": "Grid merge overrides existing keys only", "statement": "Overriding base parameters by a grid value keeps the key set at every merged level, takes every overridden value from the grid and everything else from the base, leaves the grid value unchanged, and raises ValueError exactly when the grid value names a key that the base does not have.", "quantifier": "every pair of nested dictionaries", "why_tests_cant": "all nested dictionaries", "anchors": ["babylondigger/evaluation/grid_eval.py:__merge_dicts"]}
{"id": "C56", "title": "Shuffling permutes the data set locally", "statement": "ShuffledDataset yields every document exactly once, and no document moves by max_batch_size positions or more, whatever the random generator returns.", "quantifier": "every dataset, batch size and random stream", "why_tests_cant": "all random streams", "anchors": ["babylondigger/evaluation/dataset.py:ShuffledDataset.__iter__"]}
{"id": "C57", "title": "Minibatches partition the training sentences", "statement": "Per epoch every sentence occurs in exactly one minibatch, order is kept, all batches but the last have exactly batch_size sentences and none is empty.", "quantifier": "every dataset and positive batch size", "why_tests_cant": "all datasets and batch sizes", "anchors": ["babylondigger/neural/tagger/neural_tagger.py:_get_minibatches"]}
{"id": "C58", "title": "Learning rate never increases and stays positive", "statement": "With positive initial rate, lr_decay >= 0 and lr_decrease_factor >= 1 the learning rate is positive and non-increasing over epochs for every sequence of dev accuracies; with decay 0 and factor 1 it is constant.", "quantifier": "every accuracy history and every configuration", "why_tests_cant": "all histories", "anchors": ["babylondigger/neural/tagger/neural_tagger.py:_get_lr", "babylondigger/neural/tagger/neural_tagger.py:NeuralTaggerTrainer.train"]}
{"id": "C59", "title": "Neural tagging keeps the document structure", "statement": "Whatever in-range labels the network predicts, NeuralTagger.tag yields one document per input document, in order, with the same text, spans and sentence boundaries.", "quantifier": "every document stream and every prediction", "why_tests_cant": "all documents and predictions", "anchors": ["babylondigger/neural/tagger/neural_tagger.py:NeuralTagger.tag"]}
{"id": "C60", "title": "The stub parser produces valid trees", "statement": "The output of StubParser passes syntax validation for every document: in each sentence the first token is the root and each other token is attached to its left neighbour.", "quantifier": "every document", "why_tests_cant": "all documents", "anchors": ["babylondigger/parser.py:StubParser._parse"]}
{"id": "C61", "title": "The stub tagger assigns a most frequent training tag and the surface text as lemma", "statement": "StubTaggerTrainer picks a tag with maximal count (the earliest such), StubTagger assigns it to every token with lemma = text and changes nothing else.", "quantifier": "every training set and every document", "why_tests_cant": "all tag multisets", "anchors": ["babylondigger/tagger.py:StubTaggerTrainer.get_most_frequent_pos", "babylondigger/tagger.py:StubTagger._tag"]}
{"id": "C62", "title": "A complex processor is the composition of its parts", "statement": "DocumentComplexProcessor.process applies the processors left to right; entering then leaving it without exceptions enters and exits each processor exactly once in order.", "quantifier": "every list of processors and document stream", "why_tests_cant": "all pipelines", "anchors": ["babylondigger/processor.py:DocumentComplexProcessor"]}
{"id": "C63", "title": "Batched predictions return to their sentences", "statement": "In the tdozat wrapper each sentence receives the prediction computed for it, whatever order the batches were processed in.", "quantifier": "every batch order (any permutation of sentence indices)", "why_tests_cant": "factorially many batch orders", "anchors": ["babylondigger/wrappers/tdozat.py:TDozatDocumentProcessor.__parse_documents"]}
{"id": "C64", "title": "UDPipe conversion keeps tokens and morphology", "statement": "convert_from_ud yields one token per word with unchanged span, sub_index and text; with an identity pipeline upos, xpos, feats and lemma survive the conversion both ways (empty strings count as absent).", "quantifier": "every sentence", "why_tests_cant": "all sentences and feature maps", "anchors": ["babylondigger/wrappers/udpipe1_2.py:convert_to_ud", "babylondigger/wrappers/udpipe1_2.py:convert_from_ud"]}
{"id": "C65", "title": "Saved networks re-attach to the same tensors", "statement": "Mapping a network to names and attaching the mapping to a graph with the same names yields a network with the same inputs, outputs, gold tensors, loss, optimizer and initializers; feed dictionaries assign every supplied value to the tensor of that name and raise KeyError for unknown names.", "quantifier": "every network and graph with unique names", "why_tests_cant": "all networks", "anchors": ["babylondigger/neural/network.py:NeuralNetworkMapping", "babylondigger/neural/network.py:_fill_dict"]}
{"id": "C66", "title": "Scores count exactly the aligned words that agree", "statement": "Words counts the aligned pairs; UPOS, XPOS, Feats, AllTags, Lemmas count the aligned pairs that agree in these columns; UAS counts the pairs that are both roots or whose heads are aligned to each other, LAS those that also have the same relation; CLAS and WeightedLAS add up the relation weights of the gold words of the latter; precision, recall, F1 and aligned accuracy are the corresponding ratios (0 for an empty denominator).", "quantifier": "every pair of loaded treebanks over the same characters and every weight table", "why_tests_cant": "all pairs; a wrong key or denominator shows up only on particular inputs", "anchors": ["babylondigger/evaluation/conll17_ud_eval.py:evaluate.alignment_score", "babylondigger/evaluation/conll17_ud_eval.py:evaluate.Alignment.fill_parents", "babylondigger/evaluation/conll17_ud_eval.py:evaluate.Score"]}
{"id": "C67", "title": "Aligned words share characters", "statement": "If two words are aligned then their character spans overlap.", "quantifier": "every pair of loaded treebanks over the same characters", "why_tests_cant": "all pairs of tokenisations with multiword tokens", "anchors": ["babylondigger/evaluation/conll17_ud_eval.py:evaluate.find_multiword_span", "babylondigger/evaluation/conll17_ud_eval.py:evaluate.align_words"]}
{"id": "C68", "title": "With the gold tokenisation evaluation compares word by word", "statement": "If the system file has the same words as the gold file (spans, multiword tokens, forms up to case), which is how taggers are tested, then every word is aligned to the word at the same position, Words is perfect and every score of annotations is the share of positions at which the two words agree (heads: point to the same word; CLAS and WeightedLAS: with the weights of the relations).", "quantifier": "every pair of treebanks with the same words and any annotations", "why_tests_cant": "all treebanks and predictions", "anchors": ["babylondigger/evaluation/conll17_ud_eval.py:evaluate"]}
{"id": "C69", "title": "Lemma rules are ordered totally and consistently with equality", "statement": "Comparing lemma rules is irreflexive, transitive and total: of two rules exactly one of less, equal, greater holds, so the sorted list of rules (which fixes their label ids) does not depend on the order in which they were collected.", "quantifier": "every two (three) rules", "why_tests_cant": "all triples of rules", "anchors": ["babylondigger/lemmas/transformation_rules.py:LemmaSuffixTransformation.__lt__"]}
{"id": "C70", "title": "Embedding files are read completely and consistently", "statement": "Reading a text embedding file succeeds exactly if the optional two-field header announces an integer dimension and every data line is a word followed by that many numbers; then a word has a vector exactly if a data line starts with it, and it is the one of the last such line; the initial values have a zero row for padding and one row per word, numbered without gaps.", "quantifier": "every list of lines, every number parser", "why_tests_cant": "all files; duplicates, headers and one-dimensional vectors are special cases", "anchors": ["babylondigger/features/extractors.py:EmbeddingInitializer", "babylondigger/features/extractors.py:_read_embeddings"]}
{"id": "C71", "title": "Subword segmentation drops only the word mark", "statement": "The byte-pair segmenter returns the pieces of the underlying model with exactly one leading word mark removed: the remaining pieces are the model's pieces in order, none of them empty, and together they spell the model's text without that mark; it raises IndexError when the model returns no piece.", "quantifier": "every output of the underlying model", "why_tests_cant": "all piece lists, including those whose first piece is only the mark", "anchors": ["babylondigger/features/extractors.py:TokenBPESegmenter"]}
{"id": "C72", "title": "Lemma dictionary labels decode to the lemma", "statement": "The lemma dictionary can be built for every non-empty training set (also with missing lemmas); the label of a training lemma decodes to that lemma and changes nothing else; an unknown lemma gets label 1, which is the label of another lemma or out of range.", "quantifier": "every training set and token", "why_tests_cant": "all training sets; the unknown case only shows with particular tables", "anchors": ["babylondigger/features/extractors.py:LemmaDictFeatureExtractorBuilder", "babylondigger/features/extractors.py:LemmaDictFeatureExtractor", "babylondigger/features/extractors.py:LemmaDictInterpreter"]}
{"id": "C73", "title": "Vocabulary ids do not depend on the order of the training data", "statement": "Two training sets with the same documents in a different order give the same ids to all words, subwords and characters.", "quantifier": "every two permuted training sets, every threshold and segmenter", "why_tests_cant": "all permutations", "anchors": ["babylondigger/features/extractors.py:TrainableEmbeddingsExtractorBuilder", "babylondigger/features/extractors.py:TokenCharactersFeatureExtractorBuilder"]}
{"id": "C74", "title": "The text of a sentence contains its tokens", "statement": "For every sentence of a constructed document get_sentence(i).text is the document text from the start of its first token to the end of its last token, and every token of the sentence lies inside it at its own position.", "quantifier": "every constructed document and every sentence of it", "why_tests_cant": "all documents, including sentences that begin or end in multiword tokens", "anchors": ["babylondigger/datamodel.py:NavigableSentence"]}
{"id": "C75", "title": "After the search exactly the models to be tested are on disk", "statement": "With --delete_after, when the parameter search has finished the model directory contains, for the selected parameters, one model per seed - the one of the epoch whose tagger the returned function tests - and no other model.", "quantifier": "every list of parameter sets, every list of distinct seeds, every sequence of scores and every comparison function", "why_tests_cant": "all histories of three nested loops", "anchors": ["babylondigger/evaluation/evaluation.py:SingleSeedEvaluator", "babylondigger/evaluation/evaluation.py:AverageEvaluator", "babylondigger/evaluation/evaluation.py:ParametersEstimator", "babylondigger/evaluation/evaluation.py:__build_estimator"]}
{"id": "C76", "title": "Validated documents can be evaluated", "statement": "Documents that passed syntax validation, have no head index below -1, no tab or line break in a value, and no multiword token at the end of a sentence that is followed by another are written as CoNLL-U that the evaluation script loads, with any selection of columns that includes FEATS; each word is loaded with its form, its tags, its lemma and its head, and words of one multiword token are grouped.", "quantifier": "every list of such documents, every column selection, every recursion limit of at least the length of the longest sentence", "why_tests_cant": "all documents, trees and groupings; two independent formats (writer and loader) must agree", "anchors": ["babylondigger/evaluation/conllu_io.py:to_conll", "babylondigger/evaluation/conll17_ud_eval.py:load_conllu", "babylondigger/evaluation/evaluation.py:TaggerTester._convert_to_internal"]}
{"id": "C77", "title": "Tagger scores are token accuracies", "statement": "If a tagger returns documents with the texts, sentences and tokens of the gold documents, then DataSetTaggerTester returns, for UPOS, XPOS, Feats, AllTags and Lemmas, a score whose precision, recall, F1 and aligned accuracy all are the share of tokens for which the tagger's value and the gold value are written alike.", "quantifier": "all gold documents and taggers of that kind, every case folding, every recursion limit of at least the length of the longest sentence", "why_tests_cant": "the pipeline blinds, writes, loads, aligns and counts; the claim is about its composition for all documents", "anchors": ["babylondigger/evaluation/evaluation.py:DataSetTaggerTester", "babylondigger/evaluation/evaluation.py:TaggerTester.test", "babylondigger/evaluation/conllu_io.py:CoNLLUWriter", "babylondigger/evaluation/conll17_ud_eval.py:evaluate"]}
{"id": "C78", "title": "The evaluation loader fails only on too deep trees", "statement": "A well-formed file whose sentences are trees is loaded, or the loader fails with RecursionError; it is loaded exactly if no word needs more nested calls than the recursion limit allows to reach the root or an earlier word. For every limit there are trees that are rejected.", "quantifier": "every input text and every recursion limit", "why_tests_cant": "needs trees deeper than the interpreter's limit and an exact account of the recursion", "anchors": ["babylondigger/evaluation/conll17_ud_eval.py:load_conllu"]}
{"id": "C79", "title": "A tag score of 1 means that every tag is right", "statement": "In the situation of C77 with at least one token, every tag score lies between 0 and 1, and it is 1 exactly if the tagger's value is written like the gold value for every token.", "quantifier": "all gold documents and taggers of that kind", "why_tests_cant": "an equivalence over all annotations", "anchors": ["babylondigger/evaluation/evaluation.py:DataSetTaggerTester", "babylondigger/evaluation/conll17_ud_eval.py:evaluate"]}
{"id": "C80", "title": "What the reader takes from a line", "statement": "The CoNLL-U reader accepts a line exactly if it has at least ten columns, every |-separated part of FEATS (if selected) and of MISC contains '=', and HEAD (if selected) is _ or an integer. Then ID, FORM, LEMMA, UPOS, XPOS, HEAD and DEPREL are the selected columns with _ as a missing value (as itself in FORM), FEATS is the map of its attributes (the last one of each name, the value up to a second '='), and SpaceAfter is off exactly if MISC has an attribute of that name, whatever its value.", "quantifier": "every line and every selection of columns", "why_tests_cant": "all strings; attribute lists with repeated names, several = and missing values", "anchors": ["babylondigger/evaluation/conllu_io.py:_line_parser", "babylondigger/evaluation/conllu_io.py:_parse_to_dict"]}
{"id": "C81", "title": "The grid check rejects overlapping parameters", "statement": "A grid that passes the check before a grid search has no two names that set the same hyperparameter.", "quantifier": "every grid of nested dictionaries", "why_tests_cant": "all pairs of nested dictionaries and key orders", "anchors": ["babylondigger/evaluation/grid_eval.py:__check_is_grid_valid", "babylondigger/evaluation/grid_eval.py:__take_all_key_path"]}
{"id": "C82", "title": "Every local order can occur", "statement": "Every order in which the data set is cut into consecutive batches of allowed sizes (more than half of max_batch_size, at most max_batch_size, any size up to that for the last) and each batch is reordered arbitrarily is yielded by ShuffledDataset for some outcome of the random generator. In particular a data set of at most max_batch_size documents can be yielded in every order.", "quantifier": "every data set, batch size and admissible order", "why_tests_cant": "an existence statement about random outcomes for all orders; tests see only the outcomes of some seeds", "anchors": ["babylondigger/evaluation/dataset.py:ShuffledDataset.__iter__"]}
{"id": "C83", "title": "Training yields one stored tagger per epoch", "statement": "With a dev tester NeuralTaggerTrainer.train yields one (scores, tagger) pair per epoch; the tagger of epoch i loads the directory epoch-i, which was saved once before it was tested, and evaluating the trainer leaves exactly the directory of the tagger that is returned. Without a dev tester iterating yields no tagger at all; an empty training set raises ZeroDivisionError before anything is saved.", "quantifier": "every number of epochs, every behaviour of the network and of the tester, every comparison of scores", "why_tests_cant": "all training histories, and the interplay of two loops that name directories independently", "anchors": ["babylondigger/neural/tagger/neural_tagger.py:NeuralTaggerTrainer.train", "babylondigger/evaluation/evaluation.py:SingleSeedEvaluator.evaluate"]}
{"id": "C84", "title": "Pretrained models are tested under their own epoch", "statement": "Evaluating stored models epoch-0, epoch-1, ... with the method neural_pretrained treats the model epoch-i as epoch i (its predictions are written to epoch-i-dev.conll).", "quantifier": "every number of stored models and every directory order", "why_tests_cant": "shows only with more than ten stored models", "anchors": ["babylondigger/neural/tagger/neural_tagger.py:PretrainedTaggerTrainer.train", "babylondigger/evaluation/evaluation.py:SingleSeedEvaluator.evaluate"]}
{"id": "C85", "title": "Every registered training method can be evaluated", "statement": "Each name in trainer_names() yields, when evaluated, pairs of scores and taggers, so that evaluating the method on a training set with tokens selects a tagger; other names raise NotImplementedError.", "quantifier": "every method name and training set", "why_tests_cant": "all names and data sets", "anchors": ["babylondigger/tagger.py:StubTaggerTrainer.train", "babylondigger/evaluation/evaluation.py:SingleSeedEvaluator.evaluate"]}
{"id": "C86", "title": "A perfect network reproduces the gold annotation", "statement": "If the network returns for every sentence the labels the extractors assign to the gold annotation, tagging reproduces, on documents whose tags were seen in training and whose lemma rules are known, every tag and every lemma up to lower case.", "quantifier": "every training set, tag splitting, data set and lower-casing function", "why_tests_cant": "all tag inventories, rules and documents; a test needs a trained network", "anchors": ["babylondigger/neural/tagger/neural_tagger.py:NeuralTagger.tag", "babylondigger/features/extractors.py:PosDictInterpreter", "babylondigger/features/extractors.py:SuffixTransformationInterpreter"]}
{"id": "C87", "title": "Processors are cleaned up after failures", "statement": "When a pipeline of processors is used in a with statement, every processor that was entered is exited, whatever raises.", "quantifier": "every list of processors and every failure in entering, processing and exiting", "why_tests_cant": "all positions of failures", "anchors": ["babylondigger/processor.py:DocumentComplexProcessor.__enter__", "babylondigger/processor.py:DocumentComplexProcessor.__exit__"]}
{"id": "C88", "title": "A pipeline accepts any iterable of processors", "statement": "A pipeline given an iterable of processors applies and exits all of them, also if the iterable can be iterated only once.", "quantifier": "every iterable of processors", "why_tests_cant": "all kinds of iterables", "anchors": ["babylondigger/processor.py:DocumentComplexProcessor.__init__"]}
{"id": "C89", "title": "Tagging with UDPipe keeps an existing parse", "statement": "Running a UDPipe model that only tags over parsed documents leaves the heads and dependency relations of the tokens as they were.", "quantifier": "every document and every answer of the model", "why_tests_cant": "all documents and models; the loss is silent", "anchors": ["babylondigger/wrappers/udpipe1_2.py:convert_to_ud", "babylondigger/wrappers/udpipe1_2.py:convert_from_ud"]}
{"id": "C90", "title": "Using the graph-based parser outside a with statement says so", "statement": "Processing documents with the tdozat wrapper without having entered it raises RuntimeError asking to use it as a context manager, for every input.", "quantifier": "every list of documents", "why_tests_cant": "the failure is in the construction of the error message", "anchors": ["babylondigger/wrappers/tdozat.py:TDozatDocumentProcessor.process"]}
{"id": "C91", "title": "A loaded model predicts what the saved one predicted", "statement": "A model that is saved and loaded again predicts for every input exactly what the saved model predicts, errors included.", "quantifier": "every network, every graph, every function the session computes, every input", "why_tests_cant": "all networks and inputs; loading happens in a new graph with other tensor objects", "anchors": ["babylondigger/neural/model.py:Model.load", "babylondigger/neural/model.py:Model.save", "babylondigger/neural/model.py:Model.predict", "babylondigger/neural/network.py:NeuralNetworkMapping.attach"]}
{"id": "C92", "title": "Sessions are closed", "statement": "A tagger that is loaded for tagging closes its session in the end: if reading the model fails, if tagging a document fails, if all documents are tagged and if the caller stops early. Each use opens exactly one session, and none if the extractors cannot be read.", "quantifier": "every stored model, every failure, every number of documents taken", "why_tests_cant": "failures at every point, abandoned generators", "anchors": ["babylondigger/neural/model.py:Model.load", "babylondigger/neural/tagger/neural_tagger.py:LazyNeuralTagger.tag", "babylondigger/neural/tagger/neural_tagger.py:NeuralTagger.load"]}
{"id": "C93", "title": "Every registered task can be built", "statement": "For every configuration that names registered tasks and a known optimizer the training network can be built.", "quantifier": "every configuration of features and tasks", "why_tests_cant": "all combinations of tasks and features", "anchors": ["babylondigger/neural/network.py:MultitaskNetworkBuilder.build", "babylondigger/neural/tagger/network_provider.py:get_nn_builder", "babylondigger/neural/tagger/task_builders.py:LemmaSuffixBinaryTaskNetworkBuilder"]}
{"id": "C94", "title": "Extracted features are exactly what the network is fed", "statement": "For every configuration of features and tasks that can be built, the features and labels that are extracted are exactly the ones the network accepts: feeding them raises no error, every value reaches the placeholder of its name, every placeholder the layers read gets a value, and the outputs are the labels that are interpreted.", "quantifier": "every configuration, all values", "why_tests_cant": "all combinations of tasks and features; names are given in two places", "anchors": ["babylondigger/neural/network.py:MultitaskNetworkBuilder.build", "babylondigger/neural/tagger/network_provider.py:get_nn_builder", "babylondigger/neural/tagger/shared_builders.py:WECharCNNSharedNetworkBuilder", "babylondigger/neural/tagger/task_builders.py:DenseTaskNetworkBuilder", "babylondigger/neural/network.py:NeuralNetwork.get_feed_dict"]}
{"id": "C95", "title": "Asking for feature providers has no side effects", "statement": "The feature providers of a network are those of the shared part and of each task, however often one asks for them, and any iterable of providers can be merged to one builder of features and labels.", "quantifier": "every configuration, every number of calls, every iterable of providers", "why_tests_cant": "repeated calls and one-shot iterables", "anchors": ["babylondigger/neural/network.py:MultitaskNetworkBuilder.feature_providers", "babylondigger/features/provider.py:FeatureExtractorBuilderProvider"]}
{"id": "C96", "title": "Lemmas come from applicable rules, best score first", "statement": "Whatever scores the network gives to the lemma rules, the lemma of a word is made by a rule whose suffix the word has, and no rule that fits the word has a greater score; a gold rule that scores best among the applicable ones gives the gold lemma; if no rule is applicable the lemma is the lower-cased word; tags, text and structure stay as they are.", "quantifier": "every training set, every scores, every choice of argmax among equals, every document", "why_tests_cant": "all real-valued scores; the masking of inapplicable rules and the interpretation of labels are done in different modules", "anchors": ["babylondigger/neural/tagger/task_builders.py:LemmaSuffixTaskNetworkBuilder._logits", "babylondigger/neural/tagger/task_builders.py:DenseTaskNetworkBuilder._output", "babylondigger/features/extractors.py:ApplicableSuffixTransformations", "babylondigger/features/extractors.py:SuffixTransformationInterpreter"]}
{"id": "C97", "title": "The loss is the mean over the words of the batch", "statement": "The loss of a task over a batch is the mean of the losses of the words, whatever values and width the padding has; with weights it is the weighted sum of the parts, a part without weight taking the default.", "quantifier": "every batch, every padding, all weights", "why_tests_cant": "all ragged shapes and paddings", "anchors": ["babylondigger/neural/tagger/task_builders.py:DenseTaskNetworkBuilder._loss", "babylondigger/neural/tagger/task_builders.py:DenseTaskNetworkBuilder._sum_losses", "babylondigger/neural/tagger/task_builders.py:LemmaCOMBOTaskNetworkBuilder._loss", "babylondigger/neural/tagger/shared_builders.py:WECharCNNSharedNetworkBuilder.build"]}
{"id": "C98", "title": "The subword vector of a word does not depend on the other words", "statement": "The vector made of the subwords of a word (by averaging, convolutions, recurrent layers or self-attention), and the characters the lemma decoder gets, depend on the word only, not on the other words of the batch.", "quantifier": "all batches with the same word, all embeddings", "why_tests_cant": "the padding of a word depends on all other words", "anchors": ["babylondigger/neural/utils.py:subword_average", "babylondigger/neural/tagger/task_builders.py:LemmaCOMBOTaskNetworkBuilder._get_char_embeddings"]}
{"id": "C99", "title": "Pretrained vectors reach their words", "statement": "After initialising a network, the row looked up for a word of a text is the vector of the last line of the embedding file about the word; the padding row is zero; words that are not in the file get a row of their own; matrices do not disturb each other or other variables; missing values raise KeyError.", "quantifier": "every embedding file, every network that can be built, all words", "why_tests_cant": "ids, rows and shapes are computed in different modules; all files and vocabularies", "anchors": ["babylondigger/neural/initializers.py:MatrixInitializer.initialize", "babylondigger/neural/model.py:Model.initialize", "babylondigger/features/extractors.py:EmbeddingInitializer", "babylondigger/features/extractors.py:WordEmbeddingFeatureExtractor", "babylondigger/neural/utils.py:matrix_initializer"]}
{"id": "C100", "title": "The weights file decides the weighted score and nothing else", "statement": "A weights file is accepted iff every line is a comment, blank, or a relation and a number; a relation has the weight of the last line about it. A line with another number of columns is a ValueError. Giving weights changes no other score; a weight table that mentions no relation gives LAS, one that says what CLAS says gives CLAS; lines about subtypes (with a colon) have no effect. Scores are not bounded by 1 if a weight is negative.", "quantifier": "every weights file, every number syntax, every pair of treebanks", "why_tests_cant": "all files and all treebanks; the effect on every score is an equation between two runs", "anchors": ["babylondigger/evaluation/conll17_ud_eval.py:load_deprel_weights", "babylondigger/evaluation/conll17_ud_eval.py:evaluate", "babylondigger/evaluation/conll17_ud_eval.py:evaluate_wrapper"]}
{"id": "C101", "title": "The evaluation program reports the scores", "statement": "The program fails exactly if the evaluation does. Without options it prints the LAS F1 in percent; with -v or a weights file it prints a table with precision, recall, F1 and aligned accuracy in percent of each score under its own name, with WeightedLAS last iff a weights file is given.", "quantifier": "all files, all option combinations", "why_tests_cant": "all files; the table is assembled by name from a dictionary", "anchors": ["babylondigger/evaluation/conll17_ud_eval.py:main", "babylondigger/evaluation/conll17_ud_eval.py:evaluate_wrapper"]}
{"id": "C102", "title": "delete_after destroys nothing that was there before", "statement": "With --delete_after the evaluation program refuses a non-empty model directory before doing anything. Whether a run succeeds or fails, everything that was on the disk before is still there, except the empty model directory itself. Only models of epochs and prediction files at their documented places are written; without --delete_after nothing is removed; predictions outside the model directory stay, those of every epoch in a file of their own; after a run with --delete_after nothing is left of the model directory.", "quantifier": "every initial disk, every trainer (yields, failures), all settings, successful and failing runs", "why_tests_cant": "all initial contents of the disk and all points of failure", "anchors": ["babylondigger/evaluation/evaluation.py:main", "babylondigger/evaluation/evaluation.py:ParametersEstimator.params_search", "babylondigger/evaluation/evaluation.py:SingleSeedEvaluator.evaluate", "babylondigger/evaluation/evaluation.py:TaggerTester._save_and_read"]}
{"id": "C103", "title": "The final report is about the best models", "statement": "The reported parameters are the first with the greatest comparison score, the score of a parameter set being that of its seeds together, each with the first of its best epochs. The test scores are those of exactly these taggers (averaged over several seeds); their stored models are on the disk when they are tested and the predictions are written under their own names. An unknown method is a NotImplementedError, an empty list of parameters a TypeError.", "quantifier": "all trainers, testers, seeds, parameter lists and settings with something to print", "why_tests_cant": "all score sequences, with deletions interleaved", "anchors": ["babylondigger/evaluation/evaluation.py:main", "babylondigger/evaluation/evaluation.py:AverageEvaluator.evaluate", "babylondigger/evaluation/evaluation.py:ParametersEstimator.params_search"]}
{"id": "C104", "title": "Exchanging the gold file and the system file", "statement": "Evaluating file A against file B and B against A gives the same F1 in every score, with precision and recall exchanged; the aligned accuracies agree too, except those of the scores that weight relations.", "quantifier": "all pairs of loaded treebanks with the same characters, all tables of weights", "why_tests_cant": "all pairs of files; multi-word tokens make the alignment depend on the direction", "anchors": ["babylondigger/evaluation/conll17_ud_eval.py:evaluate"]}
{"id": "C105", "title": "A score depends on its own columns only and rises with corrections", "statement": "Changing annotations of the system file without touching its words leaves Words as it is, and every score whose columns are not changed. If no aligned word that was right becomes wrong, the score does not fall; if moreover an aligned word becomes right, it rises. For CLAS, correcting annotations does not lower the score.", "quantifier": "all loaded treebanks and all changes of annotations of the system file", "why_tests_cant": "all files and all corrections", "anchors": ["babylondigger/evaluation/conll17_ud_eval.py:evaluate"]}
{"id": "C106", "title": "Evaluating several files behind each other pools their counts", "statement": "Writing two gold files behind each other and two system files behind each other and evaluating the results gives the scores of the summed counts: the gold, system, aligned and correct units of the two evaluations are added, for every score. So precision, recall and F1 of the whole lie between those of the parts.", "quantifier": "all pairs of pairs of files that the evaluation accepts, all tables of non-negative weights", "why_tests_cant": "all files; nested loops over both word lists could run over the boundary of the files", "anchors": ["babylondigger/evaluation/conll17_ud_eval.py:load_conllu", "babylondigger/evaluation/conll17_ud_eval.py:evaluate"]}
{"id": "C107", "title": "Printing a document shows its whole text with all tokens and sentences marked", "statement": "str(document) of a document with tokens succeeds and is the document text, complete and in order, with insertions only: brackets around every sentence, directly before its first and after its last token, and brackets around every token together with its part of speech and lemma if it has them. The further words of a multiword token repeat the text of the token; their own forms are not printed. The printed form of a part of speech determines it, order of features included. A document without tokens is an IndexError.", "quantifier": "all documents the constructor accepts, including multiword tokens, gaps and tokens beyond the text", "why_tests_cant": "all layouts of tokens, sentences and gaps", "anchors": ["babylondigger/datamodel.py:Document.__str__", "babylondigger/datamodel.py:Pos.__repr__"]}
{"id": "C108", "title": "Extras and parts of speech share nothing mutable with the caller", "statement": "Token extras show, for ever, what the dictionary they were created from showed at that time: no change of that dictionary, of anything nested in it, or of anything obtained from the extras (items, as_dict) has any influence, whatever else the program does. Updating gives new extras with the updates under the updated keys and leaves the old ones alone. The same holds for the features of parts of speech if these are immutable values such as strings.", "quantifier": "all programs: any sequence of creating, nesting, sharing and changing dictionaries and using the library, including cyclic objects", "why_tests_cant": "aliasing bugs show only under particular sequences of mutations", "anchors": ["babylondigger/datamodel.py:TokenExtras", "babylondigger/datamodel.py:Pos.__init__", "babylondigger/datamodel.py:Pos.feats", "babylondigger/datamodel.py:Pos.feature"]}
{"id": "C109", "title": "A grid search evaluates every combination and reports the best one", "statement": "A grid search that succeeds has evaluated the base parameters overridden by every combination of the grid's values; it reports the first combination with the greatest comparison score, with its dev and test scores, and leaves nothing of the model directory. A grid with overlapping or mixed settings, and a combination that names a parameter that does not exist, are a ValueError before anything is trained, written or removed. A model directory with contents is always refused, with or without --delete_after, and nothing that was on the disk before is lost.", "quantifier": "all grids, base parameters, trainers, settings and initial disks", "why_tests_cant": "all grids times all score sequences; the parts are tested separately at best", "anchors": ["babylondigger/evaluation/grid_eval.py:main"]}
{"id": "C110", "title": "Scores on a gold file compare the tagger with the annotations it was meant to reproduce", "statement": "When a tagger is tested on a gold file, the words it is shown are the words that are evaluated, in the same sentences and with the same annotations (if no comment line has ten columns). UPOS, XPOS, Feats, AllTags and Lemmas are the shares of words for which the columns of the file are what is written for the tagger's token. A tagger that returns the gold annotation has perfect scores.", "quantifier": "all files that the reader and the loader of the evaluation accept, all taggers whose documents can be written and that change annotations only", "why_tests_cant": "two independent parsers of the same file have to agree on every input", "anchors": ["babylondigger/evaluation/evaluation.py:FileTaggerTester", "babylondigger/evaluation/evaluation.py:TaggerTester.test", "babylondigger/evaluation/dataset.py:CoNLLUDataSet", "babylondigger/evaluation/conllu_io.py:CoNLLUReader", "babylondigger/evaluation/conll17_ud_eval.py:load_conllu"]}
{"id": "C111", "title": "UAS and LAS are the shares of tokens with the right head and relation", "statement": "If a parser changes annotations only, UAS is the share of tokens whose head number is that of the gold token and LAS the share of tokens with the same head number and the same relation up to its subtype, whatever the sentences, documents and multiword tokens; both for gold documents and for a gold file. A tagger without syntax is scored like one that attaches every word to its predecessor without a relation.", "quantifier": "all gold and predicted documents that can be written, with the same words", "why_tests_cant": "heads are compared through a global word list, so an error in an earlier sentence could shift later ones", "anchors": ["babylondigger/evaluation/evaluation.py:DataSetTaggerTester", "babylondigger/evaluation/evaluation.py:FileTaggerTester", "babylondigger/evaluation/conll17_ud_eval.py:evaluate", "babylondigger/evaluation/conllu_io.py:CoNLLUWriter"]}
{"id": "C112", "title": "Loading a CoNLL-U file, saving it and loading it again changes nothing", "statement": "Documents loaded from a CoNLL-U file and saved with the same columns can be loaded again, with the same sentences, words and annotation, and equal as documents; and saving what was loaded the second time gives exactly the same file as the first save.", "quantifier": "for all texts the reader accepts, all limits, all column selections that include the default ones", "why_tests_cant": "Depends on every combination of spacing, multiword tokens and missing values in a file of any length; tests compare one or two files.", "anchors": ["babylondigger/evaluation/conllu_io.py:CoNLLUReader", "babylondigger/evaluation/conllu_io.py:CoNLLUWriter", "babylondigger/datamodel.py:Document"]}
{"id": "C113", "title": "The ids of lemma labels do not depend on the order of the training data", "statement": "Two training sets with the same documents in a different order give the same ids to lemma rules and lemmas (label tables, and hence models and results, are reproducible).", "quantifier": "every two permuted training sets, every threshold", "why_tests_cant": "all orders of all training sets", "anchors": ["babylondigger/features/extractors.py:CachedSuffixRulesBuilder.build_rules", "babylondigger/features/extractors.py:LemmaDictFeatureExtractorBuilder.build", "babylondigger/features/extractors.py:_id2obj"]}
{"id": "C114", "title": "Calls of the graph-based parser do not influence each other", "statement": "What processing documents with a tdozat wrapper returns depends on the documents only: whatever was done with the object before (earlier calls, failed calls, entering and exiting), a call within a with statement gives what it would give on a new object.", "quantifier": "every history of entering, exiting and calling, every list of documents, every network", "why_tests_cant": "all histories, including failures at any point of a call", "anchors": ["babylondigger/wrappers/tdozat.py:TDozatDocumentProcessor.process", "babylondigger/wrappers/tdozat.py:TDozatDocumentProcessor.__enter__", "babylondigger/wrappers/tdozat.py:TDozatDocumentProcessor.__exit__"]}
{"id": "C115", "title": "A with statement around the graph-based parser closes its session", "statement": "Every session that a with statement around a tdozat wrapper opens is closed when the statement is left, whether its block ends normally, one of its calls fails, or entering it fails.", "quantifier": "every history of the object, every sequence of calls in the block, every failure", "why_tests_cant": "failures at every point cannot be provoked in tests", "anchors": ["babylondigger/wrappers/tdozat.py:TDozatDocumentProcessor.__enter__", "babylondigger/wrappers/tdozat.py:TDozatDocumentProcessor.__exit__"]}
{"id": "C116", "title": "Extra fields of the graph-based parser are exactly those asked for", "statement": "Constructing a tdozat tagger or parser succeeds exactly if the model is of the right kind and every extra field that a flag or the caller asks for names an output of the network; otherwise ValueError is raised. The object then yields exactly these extra fields, each from the output its path leads to; the caller's path takes precedence over the flag's.", "quantifier": "every nested structure of outputs, every combination of flags, every dictionary of extra fields", "why_tests_cant": "all structures of outputs and all paths", "anchors": ["babylondigger/wrappers/tdozat.py:TDozatDocumentProcessor.__init__", "babylondigger/wrappers/tdozat.py:TDozatParser.__init__", "babylondigger/wrappers/tdozat.py:TDozatTagger.__init__"]}
{"id": "C117", "title": "Failures of UDPipe are reported", "statement": "If the UDPipe model cannot be loaded, or UDPipe reports a failure for a sentence, the caller gets an exception.", "quantifier": "every model file, every model, every list of documents", "why_tests_cant": "all behaviours of the library", "anchors": ["babylondigger/wrappers/udpipe1_2.py:_AbstractUDPipeProcessor.load_udpipe", "babylondigger/wrappers/udpipe1_2.py:UDPipeTagger.ud_pipe_processor", "babylondigger/wrappers/udpipe1_2.py:UDPipeParser.ud_pipe_processor", "babylondigger/wrappers/udpipe1_2.py:UDPipeTaggerParser.ud_pipe_processor"]}
{"id": "C118", "title": "The combined UDPipe processor is the tagger followed by the parser", "statement": "For a UDPipe model whose tagger only sets lemmas, tags and features (features in UDPipe's normal form), processing documents with UDPipeTaggerParser gives exactly what UDPipeParser gives for the documents returned by UDPipeTagger, exceptions included.", "quantifier": "every such model, every list of documents", "why_tests_cant": "all models and all documents; intermediate documents are converted back and forth", "anchors": ["babylondigger/wrappers/udpipe1_2.py:UDPipeTaggerParser", "babylondigger/wrappers/udpipe1_2.py:convert_to_ud", "babylondigger/wrappers/udpipe1_2.py:convert_from_ud"]}
{"id": "C119", "title": "What is fed to the network fits the announced shapes", "statement": "For every batch, every feature and label computed by the extractors a FeatureExtractorBuilderProvider builds belongs to one of the providers and agrees with the shape its initializer announces: ids, also after padding and sparsification, are below the announced number of rows; masks have one flag per rule; labels have one entry per part, below the announced number of labels of the part; sentence lengths are the lengths of the sentences.", "quantifier": "every list of providers with different names, every training set, every batch, all random numbers", "why_tests_cant": "an out-of-range id shows up only for particular combinations of training data and batch, inside the network", "anchors": ["babylondigger/features/provider.py:FeatureExtractorBuilderProvider.build", "babylondigger/features/provider.py:AbstractExtractorBuilderProvider", "babylondigger/features/builder.py:wrap_word_level", "babylondigger/features/builder.py:wrap_sentence_level", "babylondigger/features/extractors.py:EmbeddingInitializer", "babylondigger/features/builder.py:ConstantFeatureInitializer"]}
{"id": "C120", "title": "Announced shapes and initial values", "statement": "Assembling extractors succeeds exactly if there is a provider and each builder can be built. shapes() then lists every announced name exactly once, and is a ValueError if two features or labels announce the same name. initial_values() gives values for exactly the variables of pretrained embeddings, each row named once by an index below the announced number of rows, with the announced width; if a file of embeddings is empty, it raises.", "quantifier": "every list of providers, every training set, every file of embeddings", "why_tests_cant": "all combinations of providers and files", "anchors": ["babylondigger/features/provider.py:FeatureExtractorBuilderProvider", "babylondigger/features/builder.py:CompositeInitializer", "babylondigger/features/builder.py:merge", "babylondigger/features/extractors.py:EmbeddingInitializer"]}
{"id": "C121", "title": "What is printed does not influence what is found", "statement": "Changing the printed metrics (metric_printer.fields of the settings) changes neither the parameters that a run reports, nor the score of any metric that both runs report, nor which directories are written and removed.", "quantifier": "every grid, list of seeds, list of compared metrics and every pair of lists of printed metrics", "why_tests_cant": "the printed metrics also decide which metrics are averaged over seeds, so the influence depends on the combination of both lists with the grid", "anchors": ["babylondigger/evaluation/evaluation.py:main", "babylondigger/evaluation/evaluation.py:average_scores"]}
{"id": "C122", "title": "Line ends and saving of results do not influence scores", "statement": "Scores of a tagger on a CoNLL-U file are the same for \\n, \\r\\n and \\r as line ends, and the same whether or not the predictions are saved to a results path on a platform with any of these line ends; what is saved reads back like the string it was made from.", "quantifier": "every file content, every tagger, every platform line end", "why_tests_cant": "it ranges over all files and taggers; the two routes (in memory and through a file) translate line ends differently", "anchors": ["babylondigger/evaluation/evaluation.py:TaggerTester", "babylondigger/evaluation/conllu_io.py:CoNLLUWriter.write_to_file", "babylondigger/evaluation/conllu_io.py:CoNLLUReader.read_from_file"]}
{"id": "C123", "title": "When a test on a file fails", "statement": "Testing a tagger on a CoNLL-U file gives scores exactly if the file can be read to its end (as documents and by the evaluation script), the tagger answers, its answer can be written and loaded again, and the answer has the characters of the file. An unreadable file raises the exception of the reader even if documents came before the bad line; exceptions of the tagger are passed on; changed characters raise UDError.", "quantifier": "every file, every tagger, with and without saved results, every recursion limit", "why_tests_cant": "all files and all taggers; partial reads must be shown never to be scored", "anchors": ["babylondigger/evaluation/evaluation.py:TaggerTester.test", "babylondigger/evaluation/evaluation.py:FileTaggerTester", "babylondigger/evaluation/conll17_ud_eval.py:evaluate"]}
{"id": "C124", "title": "Predicted gold labels give back the gold annotation", "statement": "Whenever feature and label extractors can be assembled from the configured features (no matter which of them have labels, in which order), so can the interpreter of predictions. If the network predicts, for every sentence of a document, exactly the labels of the same document with its gold annotation, tagging gives every token the gold tag and the gold lemma for the kinds that have labels (lemmas encoded as rules come back in lower case) and changes nothing else. This requires an annotation that the labels can express; the annotation of the training documents is expressible under the conditions given by thresholds and maximal lengths, a lemma that never occurs in the training data is not. Whatever is predicted, tagging never changes text, sentences, token boundaries or heads unless it loses all tokens; without labels it changes nothing.", "quantifier": "every training set, every list of configured features with distinct label names, every document, every sparsifier, every network", "why_tests_cant": "all combinations and orders of features and all data; labels are merged, padded and split again at several places", "anchors": ["babylondigger/features/provider.py", "babylondigger/features/builder.py:Builder", "babylondigger/neural/tagger/neural_tagger.py:NeuralTagger", "babylondigger/features/extractors.py"]}
{"id": "C125", "title": "A sentence in a batch is treated like the sentence alone", "statement": "In prediction, the values that the shared part of the network gives to the tasks for the words of a sentence do not depend on the other sentences of the batch, for all architectures of the shared part, with and without skip connections.", "quantifier": "every batch, every sentence, all learned weights, all kernels and cells", "why_tests_cant": "ranges over all weights and paddings; tests compare a few trained models", "anchors": ["babylondigger/neural/tagger/shared_builders.py:CharCNNBiLSTMSharedNetworkBuilder.build", "babylondigger/neural/tagger/shared_builders.py:DilatedCNNSharedNetworkBuilder.build", "babylondigger/neural/tagger/shared_builders.py:CharCNNBiLSTMCNNSharedNetworkBuilder.build", "babylondigger/neural/utils.py:bilstm_layer", "babylondigger/neural/utils.py:apply_conv_layer"]}
{"id": "C126", "title": "How much context the sentence-level layers see", "statement": "With BiLSTM a word can see the whole sentence. With Dilated_CNN it sees exactly the words of a window whose width on each side is the sum of half the spans of the kernels (seven words for the documented kernels). The sentence-level convolutions added by BiLSTM_CNN relate a word to its neighbours.", "quantifier": "every sentence, every list of kernels, all weights", "why_tests_cant": "that something is never seen is a statement about all weights and all inputs", "anchors": ["babylondigger/neural/utils.py:apply_conv_layer", "babylondigger/neural/utils.py:sent_level_cnn", "babylondigger/neural/utils.py:bilstm_layer", "README.md:50-63"]}
{"id": "C127", "title": "Dropout", "statement": "In prediction nothing is dropped, whatever random numbers are drawn, so predictions are deterministic. In training the configured dropout is the probability to keep a value: kept values are divided by it, so that the mean is the value, others become zero; every number of every word is kept or dropped by a random number of its own.", "quantifier": "every architecture, all random numbers from [0, 1), all probabilities", "why_tests_cant": "random behaviour cannot be settled by running it", "anchors": ["babylondigger/neural/tagger/shared_builders.py:CharCNNBiLSTMSharedNetworkBuilder.build", "babylondigger/neural/network.py:MultitaskNetworkBuilder.build", "babylondigger/neural/model.py:Model.predict"]}
{"id": "C128", "title": "Highway layers and skip connections keep the information of their input", "statement": "Each component of the output of a highway layer lies between that of its input and that of the transformed input, and is the former where the gate is 0 and the latter where it is 1. A skip connection by concatenation contains the word features unchanged in prediction, one by addition is the sum, number by number; so is a further recurrent layer.", "quantifier": "all gates with values in [0, 1], all vectors", "why_tests_cant": "all weights of gates", "anchors": ["babylondigger/neural/utils.py:highway", "babylondigger/neural/tagger/shared_builders.py:CharCNNBiLSTMSharedNetworkBuilder.build"]}
{"id": "C129", "title": "Mistakes in the settings are noticed before the training", "statement": "If the settings of an evaluation lack a key or name an unknown metric or field, the run ends with an exception before any model is trained or any file is written. A run that ends without exception has found all fields to be printed.", "quantifier": "all settings with any set of missing keys, all trainers, all contents of the disk", "why_tests_cant": "all subsets of missing keys, with runs of any length", "anchors": ["babylondigger/evaluation/evaluation.py:main", "babylondigger/evaluation/evaluation.py:score_comparator", "babylondigger/evaluation/evaluation.py:get_metrics_printer"]}
{"id": "C130", "title": "Only the documented hyperparameters have an effect", "statement": "Adding, removing or changing entries of the hyperparameters that are not documented, at any depth, changes nothing of the training: the same exception, or the same models, scores and learning rates. Documented sections of features are used.", "quantifier": "all pairs of JSON values that agree in the documented entries, all training data, all embeddings, all learning algorithms", "why_tests_cant": "infinitely many names of entries at every depth, and all configurations around them", "anchors": ["babylondigger/neural/tagger/neural_tagger.py:NeuralTaggerTrainer.train", "babylondigger/neural/tagger/network_provider.py", "babylondigger/neural/tagger/shared_builders.py", "babylondigger/neural/tagger/task_builders.py", "README.md:42-230"]}
{"id": "C131", "title": "Missing hyperparameters are reported before a model is saved", "statement": "If an entry of the hyperparameters that has no documented default is missing, at any depth, the training ends with an exception and saves no model; the entries every builder asks for itself are missed before the training data or any file is read. Missing entries with a documented default get that default.", "quantifier": "all JSON values, all training data, all embeddings, all learning algorithms, with and without dev set", "why_tests_cant": "all configurations with any set of missing entries", "anchors": ["babylondigger/neural/tagger/neural_tagger.py:NeuralTaggerTrainer.train", "babylondigger/neural/tagger/network_provider.py", "babylondigger/neural/tagger/shared_builders.py", "babylondigger/neural/tagger/task_builders.py", "README.md:42-230"]}
{"id": "C132", "title": "Documented hyperparameters mean what is documented", "statement": "Hyperparameters written as documented, with entries in any order and any further entries, train the documented thing: the listed features with their segmenters, thresholds and sizes, the named architecture with its kernels and skip connection, the listed tasks with their weights, the optimizer, the rates, the number of epochs and the batch size; one BiLSTM layer, no skip connection, no highway layer and no sparsification where nothing is said. Vectors of a file are as long as they are there, and a file without vectors is an error. Vectors with trainable false are not changed.", "quantifier": "all documented configurations, all JSON values that agree with them in the known entries, all training data, all learning algorithms", "why_tests_cant": "the configurations are a product of many choices, each with unbounded numbers", "anchors": ["babylondigger/neural/tagger/neural_tagger.py:NeuralTaggerTrainer.train", "babylondigger/neural/tagger/network_provider.py", "babylondigger/neural/tagger/shared_builders.py", "babylondigger/neural/tagger/task_builders.py", "babylondigger/neural/utils.py", "README.md:42-230", "resources/hyperparams.json"]}
{"id": "C133", "title": "A tagger looks at the words of a sentence only", "statement": "What a trained tagger predicts for a sentence depends on the texts of its words alone: existing tags, lemmas, heads and extras, the spacing, the other sentences of the document and the position of the sentence in it have no influence. Two such sentences get the same tags and lemmas, as far as the tagger has labels for them; documents made of such sentences are tagged alike or fail with the same exception.", "quantifier": "all training data, all combinations of feature providers, all networks, all documents and all pairs of sentences with the same words", "why_tests_cant": "documents with the same words differ in unboundedly many ways; a test compares a few of them", "anchors": ["babylondigger/neural/tagger/neural_tagger.py:NeuralTagger.tag", "babylondigger/features/extractors.py", "babylondigger/features/builder.py", "babylondigger/features/provider.py"]}
{"id": "C134", "title": "A network is trained on what it is asked later", "statement": "In an epoch, the network is trained on every sentence of the training data once, in order and in steps of the minibatch size (the last may be smaller). Without sparsification, the features it gets for a sentence in a step are those it gets when the sentence is tagged alone, followed by padding; a sentence that can be trained on can be tagged. The labels of a sentence are, with and without sparsification, the labels of its words in order, followed by padding. Consequently a network that answers with the labels it was trained on reproduces the annotation of the training data; a network that fits every step and does not mind padding does so.", "quantifier": "for all training data, all assemblies of providers, all minibatch sizes, all networks", "why_tests_cant": "Tests train toy networks and look at scores; they do not compare the arrays of training and of tagging, for sentences of arbitrary lengths in the same minibatch.", "anchors": ["babylondigger/neural/tagger/neural_tagger.py:NeuralTaggerTrainer.train", "babylondigger/neural/tagger/neural_tagger.py:_train_epoch", "babylondigger/neural/tagger/neural_tagger.py:_get_minibatches", "babylondigger/neural/tagger/neural_tagger.py:NeuralTagger.tag", "babylondigger/neural/model.py:Model.train", "babylondigger/features/builder.py"]}
{"id": "C135", "title": "A trained tagger says what it has seen, and can always be evaluated", "statement": "Whatever the network answers, a tagger that returns documents at all gives every word a tag made of the tags of the training data (a whole tag, or its parts as far as the configured splitting takes tags apart), and a lemma of the training data, the lower-cased word with or without an ending exchanged as in a word of the training data, or a sequence of segments of lemmas of the training data; which of these is up to the label provider. Nothing else about the words changes, and what no provider covers stays. Consequently, if the training data was read from CoNLL-U, evaluating the tagger on a file accepted by the reader and the scorer gives scores, each of them the share of words with the right value. If the network has learned the documents of the file by heart, UPOS and XPOS are perfect, Lemmas too (with rules: if the lemmas are lower case), and Feats if and only if the file spells features in the order in which they are written.", "quantifier": "for all training data, all providers, all networks, all documents and files", "why_tests_cant": "Tests see the answers of one network on one file; that no answer can lead to a value outside of the training vocabulary, or to output the scorer rejects, is about all of them.", "anchors": ["babylondigger/neural/tagger/neural_tagger.py:NeuralTagger.tag", "babylondigger/features/extractors.py", "babylondigger/evaluation/evaluation.py:TaggerTester.test", "babylondigger/evaluation/evaluation.py:FileTaggerTester"]}
{"id": "C136", "title": "Subwords are put together as documented", "statement": "The vector of a word is what the documentation of the aggregator says: with average the mean of the vectors of the subwords; with cnn the max pooling of the last of the configured convolutions over these vectors; with rnn the sum of the final states of a bidirectional LSTM over them; with self-attention a weighted mean of them with positive weights, greater ones for vectors that agree more with the others. The BiLSTM over words gives a word the forward output after the words up to it and the backward output after the words from the end of the sentence down to it.", "quantifier": "for all words, vectors, kernels, cells, and all functions with the properties of a softmax", "why_tests_cant": "Tests of networks check shapes or that training runs; whether a layer computes the documented function is a statement about all weights.", "anchors": ["babylondigger/neural/utils.py:subword_average", "babylondigger/neural/utils.py:subword_cnn", "babylondigger/neural/utils.py:subword_rnn", "babylondigger/neural/utils.py:subword_self_attention", "babylondigger/neural/utils.py:bilstm_layer", "README.md"]}
{"id": "C137", "title": "The model of a run is right about the most words", "statement": "An evaluation run trains taggers for several parameters and epochs, tests each on a dev file, and compares them by some of UPOS, XPOS, Feats, AllTags and Lemmas. No tagger trained in the run is right about more words of the dev file than the one that is reported, counting the words for which the columns of the file have the tagger's values, and those tried earlier are right about fewer. The test scores that are reported are the shares of words of the test file that this tagger is right about. Whatever their networks answer, trained taggers can take part.", "quantifier": "for all runs with one seed, all parameter lists, trainers, taggers that answer tags and lemmas, and all dev and test files with newlines as line ends", "why_tests_cant": "A test run has one data set and one sequence of scores; that reading, hiding the annotations, tagging, writing, alignment, scoring, comparison and final test together give the tagger that is right most often is about all files and all taggers.", "anchors": ["babylondigger/evaluation/evaluation.py:main", "babylondigger/evaluation/evaluation.py:FileTaggerTester", "babylondigger/evaluation/evaluation.py:TaggerTester.test", "babylondigger/neural/tagger/neural_tagger.py:NeuralTagger.tag"]}
{"id": "C138", "title": "A tagger whose network keeps to the announced sizes never fails", "statement": "If features of a batch can be computed, no two providers use the same name. Providers that could be assembled with the training data, with distinct names, give features for every batch of sentences with words, whatever the words are: unknown words, characters and values included. If the network answers every sentence with ids that are within the sizes announced to it, every document is tagged, the answer differs from the given document in tags and lemmas only, and every gold file that can be read is evaluated without an error. Nothing depends on which ids the network picks.", "quantifier": "for all training data, lists of providers, documents, gold files, and all networks that keep to the announced sizes", "why_tests_cant": "Failures of untrained or badly trained networks depend on which combination of ids they happen to produce, for tags, lemmas, rules and characters; a test sees the ids of one network on some documents.", "anchors": ["babylondigger/neural/tagger/neural_tagger.py:NeuralTagger.tag", "babylondigger/neural/model.py:Model.predict", "babylondigger/features/extractors.py:PosDictInterpreter", "babylondigger/evaluation/evaluation.py:FileTaggerTester"]}
{"id": "C139", "title": "An epoch of training never fails on the data the extractors were built from", "statement": "If the providers could be assembled with the training data and use distinct names, the features and labels of every minibatch of an epoch over these documents can be computed, whatever the order of the documents, the batch size, the sparsification rate and the random numbers are. Every label the network is trained on is a class of the size announced to it, for every word of every sentence. A document that was not there when the extractors were built can make training fail.", "quantifier": "for all training data, lists of providers, batch sizes, rates, random numbers, orders and selections of the documents", "why_tests_cant": "Whether a run survives depends on the random replacement of values, on how sentences of different lengths fall into the same batch, and on rare annotations; a failure appears hours into training on one corpus.", "anchors": ["babylondigger/neural/tagger/neural_tagger.py:_train_epoch", "babylondigger/features/builder.py:SparseFeatureExtractor", "babylondigger/features/builder.py:PaddingFeatureExtractor", "babylondigger/features/extractors.py:PosDictFeatureExtractor"]}
{"id": "C140", "title": "Training is possible exactly if the data has the annotations the labels need", "statement": "Extractors can be built exactly if there is a provider and the training data has what each one needs: words for tags and lemmas, a tag on every word if tags are split, a lemma on every word for rules and characters, and a well-formed file for pretrained vectors. Tags that are numbered as a whole must in addition all have, or all lack, the parts that are compared. Every tag of a treebank file can be split into parts, so with lemmas where needed and distinct names, training over a readable file does not fail.", "quantifier": "for all training data, files, files of vectors, lists of providers, orders of documents, rates and random numbers", "why_tests_cant": "A corpus of millions of words may have one word that lacks a value; whether this stops training depends on the chosen labels and on which tags sorting compares.", "anchors": ["babylondigger/features/extractors.py:PosDictFeatureExtractorBuilder.build", "babylondigger/features/extractors.py:CachedSuffixRulesBuilder.build_rules", "babylondigger/features/extractors.py:LemmaCharFeatureExtractorBuilder.build", "babylondigger/features/extractors.py:_read_embeddings", "babylondigger/neural/tagger/neural_tagger.py:NeuralTaggerTrainer"]}
{"id": "C141", "title": "A training run on files does not fail, and each model comes of its epoch", "statement": "If the training file can be read, has the annotations the labels need and no two features share a name, the dev file can be read, the learning rate is never divided by zero, and the network can be built, trained on what is extracted and answers within the sizes announced to it, then training yields a model with dev scores for every epoch, whatever the shuffling and the sparsification. The scores are the shares of dev words the model gets right. Each model results from running the optimiser once, at the learning rate of its epoch, over the features and labels of the documents in the order of its epoch, starting from the parameters of the model before; the first starts from the initial parameters. That also holds for the models before a failure.", "quantifier": "for all training and dev files, lists of providers, networks, optimisers, settings, random streams and sparsification rates", "why_tests_cant": "Hours of training precede the failure of one epoch; whether a saved model has seen each batch once, in an epoch order that differs every time, cannot be observed from scores.", "anchors": ["babylondigger/neural/tagger/neural_tagger.py:NeuralTaggerTrainer.train", "babylondigger/neural/tagger/neural_tagger.py:_train_epoch", "babylondigger/neural/tagger/neural_tagger.py:_get_minibatches", "babylondigger/evaluation/dataset.py:ShuffledDataset.__iter__", "babylondigger/evaluation/evaluation.py:DataSetTaggerTester"]}
{"id": "C142", "title": "Training takes any iterable of documents", "statement": "Training accepts every iterable of documents, as the signature of the trainer says: data set objects, lists, generators. However often it is iterated over while features and labels are built, and whatever order an iteration has, the feature that says which lemma rules apply to a word and the label that says which one to use number the rules in the same way.", "quantifier": "for all data sets, orders of iteration, sequences of builds, networks and settings", "why_tests_cant": "Orders differ in every iteration and rules of equal frequency change places; a test sees one sequence of builds with one kind of data set.", "anchors": ["babylondigger/features/extractors.py:CachedSuffixRulesBuilder.build_rules", "babylondigger/features/provider.py:LemmaTransformationExtractorProvider", "babylondigger/neural/tagger/neural_tagger.py:NeuralTaggerTrainer.train", "babylondigger/neural/tagger/neural_tagger.py:_train_epoch"]}
{"id": "C143", "title": "An evaluation run whose parts succeed ends with a report", "statement": "If the trainings and the tests of an evaluation run succeed, and the settings only name metrics that the testers report, the run ends normally and prints the best parameters with their scores.", "quantifier": "all numbers of parameter sets, seeds and epochs, all scores, all lists of printed and compared metrics", "why_tests_cant": "all combinations of settings and scores; which settings work depends on the number of seeds and of parameter sets, and a wrong one shows only after the trainings", "anchors": ["babylondigger/evaluation/evaluation.py:main", "babylondigger/evaluation/evaluation.py:get_metrics_averager", "babylondigger/evaluation/evaluation.py:score_comparator"]}
{"id": "C144", "title": "The rule a network is trained to choose is one it may choose", "statement": "For lemmas by suffix rules, the network gets a mask of the rules that can be applied to a word, and a rule as the label of the word. In training, whatever the shuffling, the minibatches and the sparsification, the mask of a word leaves the rule open that is its label.", "quantifier": "for all training data, words, thresholds, minibatch sizes, orders of the documents and random numbers", "why_tests_cant": "the mask and the labels are built by two builders, each from its own iteration over shuffled data; tests use one order and no rare rules", "anchors": ["babylondigger/features/extractors.py:CachedSuffixRulesBuilder", "babylondigger/features/extractors.py:SuffixTransformationFeatureExtractor.get_features", "babylondigger/features/extractors.py:ApplicableSuffixTransformations.get_features", "babylondigger/features/provider.py:LemmaTransformationExtractorProvider"]}
{"id": "C145", "title": "With several seeds the reported values are averages of shares of right words", "statement": "A run with several seeds and a trainer, whose models are compared on a dev file by some of UPOS, XPOS, Feats, AllTags and Lemmas, ends with a report: for each set of parameters and each seed the model taken is that of the first among the epochs whose models are right about most words of the dev file; the reported parameters are the first among those whose models, one for each seed, are right about most words taken together; every printed score of the dev file and of the test file (precision, recall, F1 and aligned accuracy alike) is the average over the seeds of the shares of the words of the file that the models of the reported parameters are right about.", "quantifier": "all runs that end with a report: all lists of seeds, sets of parameters, numbers of epochs, files with newlines as line ends and without comment lines of ten columns, taggers that fill in tags and lemmas", "why_tests_cant": "A test trains a few models with a few seeds; it cannot tell whether the selection and the averaging agree with counting words for every grid of parameters, every number of epochs and every list of seeds.", "anchors": ["babylondigger/evaluation/evaluation.py:AverageEvaluator", "babylondigger/evaluation/evaluation.py:get_metrics_averager", "babylondigger/evaluation/evaluation.py:SingleSeedEvaluator", "babylondigger/evaluation/evaluation.py:ParametersEstimator", "babylondigger/evaluation/evaluation.py:FileTaggerTester"]}
{"id": "C146", "title": "The result for several seeds is the average of the results for each seed alone", "statement": "A run with a list of random seeds that ends with a report reports parameters and scores such that the runs with each of the seeds alone and these parameters, with the same settings otherwise, end with a report as well, and the scores reported for the list, on the dev set and on the test set, are the averages of theirs. The order of the seeds and the other sets of parameters that were tried have no influence on the result for a seed. The trainings of a run share the data set: each gets it after it has been iterated over by all trainings before it, all seeds of the first parameters, then all of the second, and so on.", "quantifier": "all settings, lists of seeds, sets of parameters, numbers of epochs, data sets, trainers; contents of the model directory", "why_tests_cant": "A test would have to repeat every training alone and compare; that a training does not depend on what was trained before it in the same run is a statement about shared state, which shows only for data sets, seeds and grids that no test tries.", "anchors": ["babylondigger/evaluation/evaluation.py:AverageEvaluator", "babylondigger/evaluation/evaluation.py:SingleSeedEvaluator", "babylondigger/evaluation/evaluation.py:__build_estimator", "babylondigger/evaluation/evaluation.py:ParametersEstimator", "babylondigger/evaluation/dataset.py:ShuffledDataset"]}
{"id": "C147", "title": "The models tested at the end are the ones that were selected", "statement": "Taggers of the neural method know a directory only and read the model there whenever they tag, also in the final test, after other models have been stored and directories have been removed. The final test nevertheless tests exactly the selected models: for every seed the model of the epoch whose dev scores were taken, for the reported parameters, with and without --delete_after, and whatever was in the model directory before. No selected model is missing or replaced when it is tested.", "quantifier": "all lists of seeds, sets of parameters, numbers of epochs, scores, trainings, contents of the model directory", "why_tests_cant": "Whether a directory has been removed or overwritten before the test depends on the order of scores over epochs, seeds and parameters; a test trains a handful of models in one order.", "anchors": ["babylondigger/neural/tagger/neural_tagger.py:LazyNeuralTagger", "babylondigger/neural/tagger/neural_tagger.py:NeuralTagger.save", "babylondigger/neural/tagger/neural_tagger.py:NeuralTaggerTrainer", "babylondigger/evaluation/evaluation.py:SingleSeedEvaluator", "babylondigger/evaluation/evaluation.py:ParametersEstimator", "babylondigger/evaluation/evaluation.py:AverageEvaluator"]}
{"id": "C148", "title": "A run can be repeated", "statement": "Two calls of the evaluation program with the same settings, files, hyperparameters, random seeds and contents of the model directory do the same: they store and remove the same directories, select the same models and print the same scores, whatever the time of the call.", "quantifier": "all settings, files, sets of parameters, seeds; all times of the two calls and all numbers drawn from generators that are not seeded", "why_tests_cant": "A test repeats a few runs; numbers drawn from a generator without seed may agree by chance, and two calls within one second have the same clock.", "anchors": ["babylondigger/evaluation/dataset.py:ShuffledDataset.__init__", "babylondigger/features/builder.py:SparseFeatureExtractor", "babylondigger/evaluation/evaluation.py:main", "babylondigger/evaluation/evaluation.py:__build_estimator"]}
{"id": "C149", "title": "Files can be read and written piece by piece", "statement": "A document that the reader has filled up to its limit does not depend on what follows in the file, not even if a later line is faulty. If the documents of a file are all full, a second file put behind it is read as if it were alone; with one sentence per document this holds for any files that end with a blank line, and after an error in the first file nothing of the second one is read. Documents written together give the text of the documents written one after the other.", "quantifier": "all texts (with complete lines), limits, column selections, lists of documents; any number of files behind each other", "why_tests_cant": "A test reads a few files; that the reader carries nothing over from one document to the next is a statement about all states it can be in at the end of a document.", "anchors": ["babylondigger/evaluation/conllu_io.py:CoNLLUReader._read", "babylondigger/evaluation/conllu_io.py:_ReaderState", "babylondigger/evaluation/conllu_io.py:CoNLLUWriter"]}
{"id": "C150", "title": "The number of sentences per document does not matter for the sentences", "statement": "Whether a text can be read does not depend on the limit of sentences per document, and the sentences read are the same for every limit: the same words at the same places in the sentence, with the same forms, annotations and heads.", "quantifier": "all texts, all positive limits, all column selections", "why_tests_cant": "The limit changes all offsets of words and characters; a test compares a few limits on texts that are well formed.", "anchors": ["babylondigger/evaluation/conllu_io.py:CoNLLUReader._read", "babylondigger/datamodel.py:Document.__init__", "babylondigger/datamodel.py:Token.fill_heads", "babylondigger/datamodel.py:Token.is_root"]}
{"id": "C151", "title": "The representation of an object tells what it is", "statement": "Documents with the same representation (repr) are equal, and so are tokens and lemma rules with the same representation; equal documents have the same representation, and lemma rules that are printed alike are the same rule.", "quantifier": "all documents, tokens and lemma rules, all strings in them, every way of quoting strings from which the string can be told", "why_tests_cant": "Forms, tags and lemmas can contain quotes, commas, braces and arrows; a test compares the representation of a few objects.", "anchors": ["babylondigger/datamodel.py:Document.__repr__", "babylondigger/datamodel.py:Token.__repr__", "babylondigger/datamodel.py:Sentence.__repr__", "babylondigger/datamodel.py:Pos.__repr__", "babylondigger/lemmas/transformation_rules.py:LemmaSuffixTransformation.__repr__", "babylondigger/lemmas/transformation_rules.py:LemmaSuffixTransformation.__str__"]}
{"id": "C152", "title": "CLAS and WeightedLAS are LAS of content words and of weighted words", "statement": "For a parser whose documents differ from the gold documents in annotations only, CLAS counts the arcs (head and relation) of content words: recall is the share of the gold arcs with the relation of a content word that the parser has, precision the share of the parser's arcs with the relation of a content word that are right. WeightedLAS of the evaluation program is the same with the weights of the weights file, relations that are not in it having weight 1.", "quantifier": "all gold documents and gold files, all parsers, all weights files that can be loaded", "why_tests_cant": "Which words count depends on the relations of both sides; a test has a few words.", "anchors": ["babylondigger/evaluation/conll17_ud_eval.py:evaluate", "babylondigger/evaluation/conll17_ud_eval.py:load_deprel_weights", "babylondigger/evaluation/conll17_ud_eval.py:evaluate_wrapper", "babylondigger/evaluation/evaluation.py:DataSetTaggerTester", "babylondigger/evaluation/conllu_io.py:CoNLLUWriter"]}
{"id": "C153", "title": "The ids of tag labels: the most frequent value has id 0, and the order of the training data does not matter", "statement": "For every splitting of tags, id 0 of a part belongs to a value that no other value exceeds in frequency among the training words, and is given to exactly this value and the values that are not in the training data. If the training words come in another order, every tag gets the same ids and the ids are decoded to the same tags.", "quantifier": "all splittings, all lists of training tags, all tags, all orders", "why_tests_cant": "The id depends on the counts of the whole training set and on comparisons between all its tags; a test has a few tags.", "anchors": ["babylondigger/features/extractors.py:PosDictFeatureExtractorBuilder", "babylondigger/features/extractors.py:PosDictFeatureExtractor", "babylondigger/features/extractors.py:_count_parts", "babylondigger/features/extractors.py:_id2obj"]}
{"id": "C154", "title": "Documents and updates take tokens of every class", "statement": "A document (and a document made by from_document) can be built from any mixture of plain tokens, tokens taken from other documents and updated tokens: the result, or the error, is that of plain tokens with the same attributes, and its tokens show the text of the new document, whatever text the given tokens carried. The updates called through a token taken from a document never fail and give a token that shows the same text and follows the updates of plain tokens; called through Token they give a plain token, and called through DocumentToken on a plain token they raise AttributeError.", "quantifier": "all lists of tokens of the three classes, all texts and sentence boundaries, all updates", "why_tests_cant": "Tokens of one document usually end up in another one with the same text; a test does not mix classes and texts.", "anchors": ["babylondigger/datamodel.py:DocumentToken", "babylondigger/datamodel.py:NavigableToken", "babylondigger/datamodel.py:Document.__init__", "babylondigger/datamodel.py:Document.from_document", "babylondigger/datamodel.py:Token.fill_heads"]}
{"id": "C155", "title": "Reading a file is lazy and the file is closed", "statement": "Documents taken one by one from CoNLLUReader.read_from_file are the documents of the whole text in order, followed by its exception or the end, and after that only the end. When a document is given out of the middle of a file, exactly the lines up to the empty line of its last sentence have been read, and it does not depend on the rest. Once the first document has been asked for, the file is closed exactly if the iterator was closed or has ended (with or without an exception), so never before the last document; an iterator that is closed before it was started leaves the file open.", "quantifier": "all texts, limits and columns, all consumers (sequences of next and close)", "why_tests_cant": "A test does not look at open files or at how far a file has been read, and a consumer can stop anywhere.", "anchors": ["babylondigger/evaluation/conllu_io.py:CoNLLUReader._read", "babylondigger/evaluation/conllu_io.py:CoNLLUReader.read_from_file", "babylondigger/evaluation/dataset.py:CoNLLUDataSet.__iter__"]}
{"id": "C156", "title": "Rounding of floating-point numbers does not decide which model is selected", "statement": "For taggers tested on the same words, although scores, sums over the compared fields and means over seeds are rounded floating-point numbers, the epoch selected for a seed has the greatest number of right answers (summed up over the compared fields) of all epochs, and the selected parameters have the greatest number summed up over fields and seeds. With one compared field the first such epoch is selected; with several, rounding can prefer a later epoch with the same number.", "quantifier": "all numbers of words, fields and seeds up to a bound that grows with the precision (10 to the 13 words for four fields in double precision), all roundings with a bounded relative error", "why_tests_cant": "Scores of good taggers differ in the fifth digit or less and sums of floats depend on rounding; a test compares a few scores that differ a lot.", "anchors": ["babylondigger/evaluation/conll17_ud_eval.py:Score.__init__", "babylondigger/evaluation/evaluation.py:score_comparator", "babylondigger/evaluation/evaluation.py:get_metrics_averager", "babylondigger/evaluation/evaluation.py:SingleSeedEvaluator.evaluate", "babylondigger/evaluation/evaluation.py:ParametersEstimator.params_search"]}
{"id": "C157", "title": "Scores are bounded by what the training data contains, and inflections seen in training reach unseen words", "statement": "Whatever the network does, a tagger is not credited for a value that is not in its training data: on a CoNLL-U file the number of right UPOS (XPOS) is at most the number of words whose UPOS (XPOS) occurs in the training data; the same holds for Feats unless features are predicted one by one, and for AllTags if tags are predicted as a whole. The number of right lemmas is at most the number of words whose gold lemma can be had from the training data: as a whole, by exchanging an ending as in a training word (or none), or from segments of training lemmas, depending on the label provider. Conversely, with suffix rules, if more than the threshold of training words are inflected as a word and its lemma, there are network outputs for which the word, seen or not, gets this lemma (lower-cased).", "quantifier": "all networks, label providers, training data and test files; all rule thresholds and words", "why_tests_cant": "The bound is about every network, including ones that training never produces; a test evaluates one trained network.", "anchors": ["babylondigger/features/extractors.py:PosDictFeatureExtractor", "babylondigger/features/extractors.py:LemmaDictInterpreter", "babylondigger/features/extractors.py:LemmaSuffixTransformationFeatureExtractorBuilder", "babylondigger/features/extractors.py:LemmaCharInterpreter", "babylondigger/evaluation/evaluation.py:DataSetTaggerTester", "babylondigger/evaluation/conll17_ud_eval.py:evaluate", "babylondigger/lemmas/transformation_rules.py:LemmaSuffixTransformation"]}
{"id": "C158", "title": "The command lines of the evaluation and grid search programs", "statement": "A command line is accepted exactly if it gives options one after the other, by name or by an abbreviation that begins no other option, with values behind = or as the next argument; other command lines end the program before any file is opened. If no option is given twice, order, spelling and abbreviations do not matter; otherwise the last value counts. A missing --settings, --hyperparams or --grid is a TypeError before anything is written. The evaluation program removes nothing unless --delete_after is given. The grid search program does what the evaluation program does for a file with the list of all combinations and --delete_after, whether this flag is given or not.", "quantifier": "all command lines, contents of files, settings, trainers and disks", "why_tests_cant": "Command lines can be spelled in unboundedly many ways, and the effect of a flag is seen in all files of a run; a test starts a program in one way.", "anchors": ["babylondigger/evaluation/evaluation.py:_build_parser", "babylondigger/evaluation/evaluation.py:_parse_arguments", "babylondigger/evaluation/evaluation.py:main", "babylondigger/evaluation/grid_eval.py:__parse_arguments_with_grid", "babylondigger/evaluation/grid_eval.py:main"]}
{"id": "C159", "title": "Annotating again changes nothing, and layers do not disturb each other", "statement": "Tagging a document that a tagger has tagged with the same tagger again returns exactly the same document. If the second of two taggers sets both tags and lemmas, the result is that of the second alone, provided the first kept the words. A lemmatizer and a part of speech tagger give the same document in either order. Whatever heads and relations a document has, the same tags and lemmas are set, and tagging before or after the stub parser gives the same document or the same exception. The stub tagger and the stub parser applied twice give what they give when applied once.", "quantifier": "all documents, training data, providers, networks and previous annotations", "why_tests_cant": "Idempotence and commutation are statements about pairs of executions for every document and network; a test runs a tagger once and looks at the result.", "anchors": ["babylondigger/neural/tagger/neural_tagger.py:NeuralTagger", "babylondigger/features/extractors.py:PosDictInterpreter", "babylondigger/features/extractors.py:LemmaDictInterpreter", "babylondigger/tagger.py:StubTagger", "babylondigger/parser.py:StubParser", "babylondigger/datamodel.py:Document.from_document"]}
{"id": "C160", "title": "The graph-based tagger and parser keep the annotation they do not make", "statement": "Tagging with a tdozat model leaves the heads and dependency relations of the tokens as they were, and parsing with one leaves their tags and lemmas as they were.", "quantifier": "all documents, all predictions in all orders of batches, all sets of fields that a network reads and predicts", "why_tests_cant": "Which columns survive depends on the fields of the network, the order of batches and every cell of the predictions; a test runs one model.", "anchors": ["babylondigger/wrappers/tdozat.py:TDozatDocumentProcessor.process", "babylondigger/wrappers/tdozat.py:TDozatTagger", "babylondigger/wrappers/tdozat.py:TDozatParser", "babylondigger/evaluation/conllu_io.py:default_line_parser"]}
{"id": "C161", "title": "The order of the sentences or files that are evaluated does not matter", "statement": "If gold files and system files are put behind each other in another order, the same for both (for instance the sentences of a test set in shuffled order), the result can be evaluated again, and precision, recall and F1 of all scores are the same, with or without weights of relations.", "quantifier": "all lists of pairs of gold and system files that can be evaluated, all permutations of them, all tables of non-negative weights, all functions for lower case", "why_tests_cant": "Every order of every corpus would have to be evaluated; a test compares two orders of one corpus.", "anchors": ["babylondigger/evaluation/conll17_ud_eval.py:load_conllu", "babylondigger/evaluation/conll17_ud_eval.py:evaluate"]}
{"id": "C162", "title": "All models of a run can be loaded afterwards, or none if they are to be deleted", "statement": "After an evaluation run without --delete_after the model of every epoch of every training can be loaded from a directory of its own, named by the number of the hyperparameters, the seed and the number of the epoch, and no other stored model has changed. After a run with --delete_after no model is left in the model directory, and models elsewhere are unchanged.", "quantifier": "all trainings with any number of epochs, lists of hyperparameters and seeds, all contents of the disk before the run, all scores", "why_tests_cant": "The directories of all trainings of all runs would have to be compared with the networks in memory; a test does one short training.", "anchors": ["babylondigger/evaluation/evaluation.py:main", "babylondigger/neural/tagger/neural_tagger.py:NeuralTagger.save", "babylondigger/neural/tagger/neural_tagger.py:LazyNeuralTagger", "babylondigger/neural/tagger/neural_tagger.py:NeuralTaggerTrainer.train"]}
{"id": "C163", "title": "The evaluation does not look at comments, empty nodes, DEPS, MISC, subtypes of relations and spaces in words", "statement": "If the gold file, the system file or both are changed in comments before sentences, lines of empty nodes, the columns DEPS and MISC, the subtypes of relations, spaces in the forms of words, the columns of multi-word token lines other than ID and FORM, or the numbers of the words in multi-word tokens, then the evaluation script gives exactly the same scores and the same report, or fails with the same exception.", "quantifier": "all pairs of gold and system files, well-formed or not, and all such changes of them, all tables of weights, verbosities and functions for lower case", "why_tests_cant": "Arbitrary changes of arbitrary files, also of files that are rejected, would have to be evaluated; tests compare a few pairs of files.", "anchors": ["babylondigger/evaluation/conll17_ud_eval.py:load_conllu", "babylondigger/evaluation/conll17_ud_eval.py:evaluate", "babylondigger/evaluation/conll17_ud_eval.py:main"]}
{"id": "C164", "title": "Hyperparameters of a wrong type, negative sizes and unknown names are reported before a model is saved", "statement": "If one of these hyperparameters is there but is not what it has to be (a size that is negative, no whole number or no number; a number of epochs or layers that is no whole number; a number of layers of the shared part that is not positive; a rate, threshold, dropout, batch size, learning rate or weight of the character-level lemmatizer that is no number; a path or name of a layer that is no string; a builder, segmenter, aggregator, splitting, optimizer or skip connection that is none of the known ones; a list of convolutions with such a size in it), training ends with an exception: before the first epoch for everything that is part of the features, the network, the optimizer or the number of epochs, and before a model is saved for dropout, batch size and decay of the learning rate. The factor of the learning rate may be found later, or never.", "quantifier": "all JSON values as hyperparameters, all data sets, embedding files and segmenters, all results of TensorFlow and dev testers", "why_tests_cant": "Every entry at every place would have to be replaced by every wrong value in every combination of builders, features and tasks; a test trains with one configuration.", "anchors": ["babylondigger/neural/tagger/neural_tagger.py:NeuralTaggerTrainer.train", "babylondigger/neural/tagger/shared_builders.py", "babylondigger/neural/tagger/task_builders.py", "babylondigger/neural/utils.py:subwords_features_builder", "babylondigger/features/extractors.py"]}
{"id": "C165", "title": "With lower thresholds and more training documents nothing that was known is lost", "statement": "With a lower min_frequency or with further training documents, every character or subword that had an id still has one, in the same order, and no word gets more unknown subwords; with a threshold of at most 1 all subwords of the training words are known. With a lower rules_threshold no lemma rule is lost, the rule with number 0 stays the same, and every token whose gold label led to the right lemma keeps such a label. With further documents no rule that occurs more often than rules_threshold is lost; the rule with number 0 can be, if it is in the table only because no other rule is more frequent.", "quantifier": "all training data sets and sublists of them, all thresholds, all segmenters, all words and lemmas", "why_tests_cant": "Tests use one data set and one threshold; the claim compares all pairs of thresholds and data sets.", "anchors": ["babylondigger/features/extractors.py:TokenCharactersFeatureExtractorBuilder", "babylondigger/features/extractors.py:CachedSuffixRulesBuilder", "babylondigger/features/extractors.py:_id2obj"]}
{"id": "C166", "title": "More parameter sets never give a worse result", "statement": "If a list of hyperparameters, or the values of a grid, is extended, in any order, the run that tries more parameter sets does not report a smaller comparison score on the dev set than the run that tries fewer of them. If the reported parameter set is better than all others, the order of the list and the presence of the others have no influence: the same parameters and the same scores on the dev set and the test set are reported. Without a parameter set that was not reported the same is reported, also if it was as good as the reported one.", "quantifier": "all lists of hyperparameters and their extensions and orders, grids, seeds, settings, trainings and contents of the model directory", "why_tests_cant": "A test would have to train every parameter set twice, in lists of different lengths and orders, and could only do so for a few lists; ties and shared state show up for particular scores only.", "anchors": ["babylondigger/evaluation/evaluation.py:ParametersEstimator", "babylondigger/evaluation/evaluation.py:SingleSeedEvaluator", "babylondigger/evaluation/evaluation.py:AverageEvaluator", "babylondigger/evaluation/grid_eval.py:main", "babylondigger/evaluation/dataset.py:ShuffledDataset"]}
{"id": "C167", "title": "A longer training begins with the shorter one and never gives a worse result", "statement": "If only the number of epochs is increased, the training begins with the same epochs: the same learning rates, the same stored models and the same dev scores; if the shorter training failed, the longer one fails in the same way. Therefore the run that trains longer does not report a smaller comparison score on the dev set, neither for one seed nor for the average over several seeds, neither for one parameter set nor for several; with a shuffled data set this holds for one seed and one parameter set.", "quantifier": "all data sets, numbers of epochs, learning rates, networks, dev testers, seeds, sets of parameters and settings", "why_tests_cant": "A test can only compare a few short trainings; that the number of epochs enters nothing but the end of the loop, and that the selection and the averages are monotone, concerns all scores and all numbers of epochs.", "anchors": ["babylondigger/neural/tagger/neural_tagger.py:NeuralTaggerTrainer.train", "babylondigger/evaluation/evaluation.py:SingleSeedEvaluator", "babylondigger/evaluation/evaluation.py:AverageEvaluator", "babylondigger/evaluation/evaluation.py:ParametersEstimator", "babylondigger/evaluation/evaluation.py:get_metrics_averager"]}
{"id": "C168", "title": "Adding words to a file of pretrained vectors leaves the vectors and numbers of the words it had", "statement": "If lines are added at the end of a file of pretrained vectors that can be read and has at least one line, the longer file can be read exactly if every added line is a word followed by as many numbers as the vectors of the file have. Then every word that no added line is about keeps its vector or keeps having none, every word of the shorter file keeps its number, also if an added line gives it another vector, and the new words get larger numbers. A network initialized from the longer file looks up, for every word of the shorter file, the row with the same number, and it holds the same vector, or, if added lines are about the word, the vector of the last of them. The vectors do not depend on the order of the lines if no two lines are about the same word.", "quantifier": "every two files one of which begins with the other, every way to read numbers, with and without header, every text that is looked up", "why_tests_cant": "a test reads one pair of files; duplicates, headers and positions interact for all pairs", "anchors": ["babylondigger/features/extractors.py:EmbeddingInitializer", "babylondigger/features/extractors.py:_read_embeddings"]}
{"id": "C169", "title": "The stub tagger is the best tagger that gives all words the same tag", "statement": "On the documents it was trained on, given to it without annotation, the stub tagger is right about the tags of at least as many words as any tagger that gives all words one tag, whichever tag that is. If there are n different tags, at least one n-th of the tags are right, and all of them if all tags are equal. It is right about the lemmas of exactly those words whose lemma is their text. Also for the universal tags alone no other single tag is right more often.", "quantifier": "every list of documents with at least one word, every tag", "why_tests_cant": "a test compares with one or two other tags on one sample", "anchors": ["babylondigger/tagger.py:StubTagger", "babylondigger/tagger.py:StubTaggerTrainer"]}
{"id": "C170", "title": "Equal documents are interchangeable", "statement": "Two documents that compare equal with == are written as the same text, give the same documents to a tagger under test, give the same scores when they are the reference, and are tagged with equal results by the stub tagger and by a trained tagger (or both fail in the same way). Stub taggers trained on equal documents are equal. Pipelines of these processors, the stub parser and UDPipe processors make equal documents of equal documents. All this although the order of their features and their derived sentence heads may differ.", "quantifier": "every pair of lists of equal documents, all columns, every stub tag, every set of providers and every network", "why_tests_cant": "a test compares a few pairs of documents; documents can be equal in many ways without being the same", "anchors": ["babylondigger/datamodel.py:Document", "babylondigger/evaluation/conllu_io.py:CoNLLUWriter", "babylondigger/evaluation/evaluation.py:TaggerTester"]}
{"id": "C171", "title": "The order of the names in a grid file does not matter", "statement": "Each parameter set of a grid search has the settings of the base file: where the value chosen for some name is about a setting it has that value, otherwise that of the base file. The order of the names in the grid file has no influence on whether the grid is accepted, on the parameter sets that are tried, on the best score and, if one parameter set is better than all others, on anything that is reported. A further name, one of whose values is what the base file says anyway, never makes the result worse.", "quantifier": "every base file and every grid, every order of its names, every trainer", "why_tests_cant": "a test tries one or two orders of one small grid", "anchors": ["babylondigger/evaluation/grid_eval.py:main", "babylondigger/evaluation/grid_eval.py:__build_list_of_new_hyperparams", "babylondigger/evaluation/grid_eval.py:__merge_dicts"]}
{"id": "C172", "title": "Documents are processed independently of each other", "statement": "Processing several documents together with the stub tagger, the stub parser, a UDPipe processor, a trained tagger or a pipeline of these gives for each document what processing it alone gives, in the order of the documents, and succeeds exactly if each document alone can be processed. So a list can be processed in parts, and in another order the same results come in that order. The same holds for removing the annotation before a test.", "quantifier": "every list of documents, every UDPipe model, every network, every pipeline", "why_tests_cant": "a test processes a few documents together; independence is about all companions of a document", "anchors": ["babylondigger/processor.py:DocumentComplexProcessor", "babylondigger/tagger.py:StubTagger", "babylondigger/parser.py:StubParser", "babylondigger/wrappers/udpipe1_2.py:_AbstractUDPipeProcessor", "babylondigger/neural/tagger/neural_tagger.py:NeuralTagger"]}
{"id": "C173", "title": "The names of tags, features and lemmas do not matter for the scores", "statement": "If tags, features or lemmas get other names in the gold file and the system file, different names for different ones, all scores stay the same. If some of them get the same name, as in a coarser tag set, no score gets lower, and the scores of tokens, sentences, words, heads and relations stay the same. Other names for relations leave UAS and LAS (LAS does not get lower if relations are merged), and CLAS if the relations of function words keep being such.", "quantifier": "for all pairs of loaded treebanks, all mappings of the values of the columns, all weights", "why_tests_cant": "Tests compare files with the tags they have; the claim is about all mappings between tag sets.", "anchors": ["babylondigger/evaluation/conll17_ud_eval.py:evaluate", "babylondigger/evaluation/conll17_ud_eval.py:load_conllu"]}
