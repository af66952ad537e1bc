# Formal model of babylondigger: design

## What is in this directory

* `properties.jsonl`: the claims, one JSON object per line (C01, C02, ...).
* `lean/Verif/Py.lean`: the few pieces of Python semantics the model needs
  (errors as values, negative indexing, stable sorting, `str`/`int` conversion,
  insertion-ordered dictionaries).
* `lean/Verif/Model/*.lean`: the model, roughly one file per source module; every
  definition cites the file and lines of /repo it mirrors and states what it simplifies.
* `lean/Verif/Spec/*.lean`: the vocabulary of the theorem statements, independent of the
  model's helper functions.
* `lean/Verif/Proofs/*.lean`: helper lemmas.
* `lean/Verif/Props/*.lean`: the property theorems (named after the claims) and examples
  showing that their hypotheses can be met.
* `MANIFEST.json`: claim -> theorems, with status.
* `seeded/LOG.jsonl`: mutation tests of the theorems.
* `lean/Verif/Conformance.lean`: the project's own unit tests (babylondigger/tests and the tests in conll17_ud_eval.py) replayed on the model by evaluation. They are no proofs and no theorem depends on them; they only show that the model is a model of this code. Three of the project's tests are not passed by the code (`test_another_valid_grid`, `test_grid_has_intersections2`, `ParameterEstimatorTest`, which calls a constructor with other arguments); the file says what happens instead.

## Trusted base

* Lean 4.33.0's kernel, and the three standard axioms `propext`, `Classical.choice`,
  `Quot.sound` (listed per theorem at the end of this file). No `sorry`, no own axioms,
  no `native_decide`, no `bv_decide`.
* The reading of the Python sources by which the model was written (cited line by line).
* Python semantics as encoded in `Py.lean`.

## Modelling decisions

* **Exceptions are values.** Every function that can raise returns `Except Err a`; the
  constructors of `Err` are the Python exception classes.
* **Strings** are `List Char`. Lone surrogates are therefore not represented.
  `str.lower` is an arbitrary function parameter wherever it is used, so results hold for
  every lower-casing function.  `str.isspace` is the finite table of Python whitespace.
* **Integers** are unbounded (`Int`, `Nat`), as in Python.
* **Dictionaries** are insertion-ordered association lists.
* **Floats** (scores, learning rates, losses) are exact rationals. Rounding is modelled for the selection of models only (C156).
* **Random generators** are universally quantified streams.
* **Generators** are modelled by the list of yielded values together with the exception
  that ends the iteration, if any; laziness is modelled only where a claim depends on it.
* **Aliasing** of mutable objects is modelled only where a claim depends on it
  (grid search, feature providers, extras and parts of speech in C108).
* **Loops** without a structural measure are given fuel with an explicit out-of-fuel
  outcome, and it is proved that the fuel suffices.

## Which parts of the code are modelled

| Source | Modelled | Not modelled |
|---|---|---|
| `datamodel.py` | everything that computes or checks, `Document.__str__` | the other `__repr__`s |
| `evaluation/conllu_io.py` | reader and writer | file handles: files are lists of lines |
| `evaluation/conll17_ud_eval.py` | loader, alignment, scores, relation weights, the report of the program | argparse, formatting of numbers, unit tests inside the file |
| `evaluation/evaluation.py` | testers, evaluators, averaging, parameter search, selection, clean-up, runs with their effects on the disk | logging, argument parsing |
| `evaluation/grid_eval.py`, `dataset.py`, `trainers.py` | everything but argument parsing | |
| `lemmas/transformation_rules.py` | everything but `__repr__`/`__str__` | |
| `features/builder.py`, `extractors.py`, `provider.py` | builders, extractors, interpreters, initial values | sentencepiece and morfessor models (parameters) |
| `neural/network.py`, `model.py`, `initializers.py` | placeholders, mapping, saving/attaching, feeding, sessions, construction of all registered networks abstracted to the variables created and the sizes required | tensor values, gradients, checkpoints (trusted to restore what was saved) |
| `neural/utils.py`, `neural/tagger/*_builders.py` | the configurations that can be built, sizes, names; the arithmetic of masking, losses, decoding, convolutions, aggregation of subwords, dropout, highway and skip connections | weights, the steps of LSTM cells, sigmoid and softmax (arbitrary functions), the dense layers of the tasks |
| `neural/tagger/neural_tagger.py`, `tagger.py`, `parser.py`, `processor.py` | everything | pickling (trusted to restore what was saved) |
| `wrappers/udpipe1_2.py`, `wrappers/tdozat.py` | conversion to and from the libraries | the libraries themselves (arbitrary functions) |

## Properties: what is modelled and how it is proved

Status and remarks are in `MANIFEST.json`. For a partial claim the full statement is refuted by a theorem
whose name contains `refuted` (or `erased`), unless the remark says otherwise.

| Claim | Status | Model | Proof |
|---|---|---|---|
| C01 Tokens of a document are ordered and never overlap | proved | `Model/Datamodel.lean`: `Token`, `_WordList.__init__` | order of the sorted list (stable sort lemma) and the adjacent-pair check, lifted to all pairs by induction |
| C02 Document construction does not depend on the order of its arguments | proved | `Model/Datamodel.lean`: `Document.__init__` | sorting two permutations gives the same list when keys are distinct; keys are distinct by C01 |
| C03 Sentences partition the tokens | proved | `Model/Datamodel.lean`: sentence boundary checks, token-to-sentence ranges | invariant of the scan that assigns tokens to sentences |
| C04 Construction accepts exactly the well-formed inputs | proved | `Model/Datamodel.lean`: every assertion of `Token`, `Sentence`, `_WordList`, `Document` | case analysis of every check, both directions |
| C05 Multiword tokens are numbered 0,1,2,... without gaps | partial | `Model/Datamodel.lean`: multiword numbering check | witness for the refutation; induction over the sorted list for the weaker guarantee |
| C06 Document-level and sentence-level heads agree | proved | `Model/Datamodel.lean`: head conversion in both directions | arithmetic with sentence offsets, per token |
| C07 Syntax validation accepts exactly forests of single-rooted trees | proved | `Model/Datamodel.lean`: `validate_syntax` | invariant of the colouring depth-first walk: grey path, black nodes reach the root |
| C08 A token's head is the same token in both views | proved | `Model/Datamodel.lean`: `DocumentToken`, `SentenceToken` head accessors | offset arithmetic on built documents |
| C09 Navigation with next/previous visits neighbours and is inverse | proved | `Model/Datamodel.lean`: navigable views | index lemmas for lists |
| C10 from_document replaces annotations and nothing else | proved | `Model/Datamodel.lean`: `from_document` | construction theorem of C04 applied to the old structure with the new annotations |
| C11 Re-wrapping a document's own tokens is the identity | partial | `Model/Datamodel.lean`: `from_document` | witness; otherwise C10 plus field-wise equality |
| C12 Token and document equality | partial | `Model/Datamodel.lean`: `Token.__eq__`, `Document.__eq__` | equivalence laws by unfolding; witnesses for the fields equality ignores |
| C13 Functional token updates change only what they name | proved | `Model/Datamodel.lean`: `with_*` methods | field-wise computation over all fields |
| C14 Pos equality, hashing and ordering are consistent | proved | `Model/Datamodel.lean`: `Pos.__eq__`, `__hash__`, `__lt__` | lexicographic order on triples; hash as a function of the compared triple |
| C15 TokenExtras behave as immutable right-biased maps | proved | `Model/Datamodel.lean`: `TokenExtras` | association-list lemmas |
| C16 Reader splits the input into documents of exactly the limit | proved | `Model/ConlluIO.lean`: reader loop and document limit | induction over lines; acceptance equivalent to a grammar of blocks |
| C17 Every document the reader yields is a valid document | proved | `Model/ConlluIO.lean`: reader | construction theorem C04 for the tokens the reader makes |
| C18 Reader reconstructs the text from forms | proved | `Model/ConlluIO.lean`: reader | invariant: the text so far is the concatenation of the forms |
| C19 Write then read gives the document back | proved | `Model/ConlluIO.lean`: reader and writer | simulation of the reader over the lines the writer emits |
| C20 Writer emits each token exactly once | partial | `Model/ConlluIO.lean`: writer states | induction over sentences; witness for the repetition; exact count of word lines by an invariant relating the tokens handed over, the tokens waiting and the lines written (Proofs/WriterCount) |
| C21 Every line the writer produces has ten columns | proved | `Model/ConlluIO.lean`: writer | per-row case analysis |
| C22 Writer honours the column selection | partial | `Model/ConlluIO.lean`: column selection | per-row case analysis; witnesses for both failures |
| C23 Unparsed documents are written as loadable chains | proved | `Model/ConlluIO.lean`, `Model/UdEval.lean` | writer rows evaluated by the loader; the chain has depth at most two calls |
| C24 Loaded treebanks are single-rooted trees | proved | `Model/UdEval.lean`: `load_conllu` | invariant of the root search over heads |
| C25 Loaded token spans tile the characters | proved | `Model/UdEval.lean`: `load_conllu` | invariant: characters so far equal the spans so far |
| C26 Token and sentence scores count common spans exactly | proved | `Model/UdEval.lean`: `spans_score` | two-pointer loop invariant on sorted spans |
| C27 Word alignment is a monotone one-to-one matching | proved | `Model/UdEval.lean`: `align_words` | invariant of the alignment loop: both indices strictly increase |
| C28 evaluate terminates without internal errors on any pair of loaded treebanks | proved | `Model/UdEval.lean`: `evaluate` and everything below it | explicit fuel; a measure shows it is never exhausted |
| C29 Only compatible words are aligned | proved | `Model/UdEval.lean`: `align_words` | loop invariant |
| C30 Alignment inside a multiword span is a longest common subsequence | proved | `Model/UdEval.lean`: `compute_lcs` | optimal-substructure induction on the table |
| C31 Evaluating a treebank against itself is perfect | proved | `Model/UdEval.lean`: `evaluate` | alignment of a treebank with itself is the diagonal |
| C32 Scores are bounded and ordered | proved | `Model/UdEval.lean`: scores | counting lemmas over rationals |
| C33 Without multiword tokens alignment is exact span matching | proved | `Model/UdEval.lean`: `align_words` | induction on the loop, one-word branch |
| C34 A derived rule transforms the word to its lemma | proved | `Model/Lemmas.lean`: rule derivation | longest-common-prefix lemma |
| C35 Rules returned by the trie are applicable | proved | `Model/Lemmas.lean`: trie | induction on the trie path |
| C36 The trie misses no regular rule and no matching exception | proved | `Model/Lemmas.lean`: trie | induction on the insertions |
| C37 Exception rules are only offered for the exact word | partial | `Model/Lemmas.lean`: trie exceptions | witness; induction on the path for the exact condition |
| C38 Padding makes features rectangular and only appends padding | proved | `Model/Features.lean`: padding | induction on nesting depth |
| C39 Merging feature builders keeps every feature | proved | `Model/Features.lean`: builder merging | induction on builder trees |
| C40 Composite extraction is a disjoint union | proved | `Model/Features.lean`: composite extraction | fold over the members with a disjointness invariant |
| C41 Sequence interpretation inverts sequence extraction | proved | `Model/Features.lean`: iterable extraction/interpretation | induction over positions |
| C42 Sparsification keeps shape and never invents ids | proved | `Model/Features.lean`: sparsification | induction over the nested value, any random stream |
| C43 Vocabulary ids stay inside the declared shape | proved | `Model/Extractors.lean`: vocabularies | lookup lemmas |
| C44 Frequent training words are never out of vocabulary | partial | `Model/Extractors.lean`: vocabulary of the embedding extractor | witness; lookup lemmas for single characters |
| C45 Part-of-speech labels decode to the encoded tag | partial | `Model/Extractors.lean`: part-of-speech splitters and tables | lookup lemmas; injectivity of feature naming; witness |
| C46 Label tables are bijections with the most frequent label first | proved | `Model/Extractors.lean`: label tables | sorting and lookup lemmas |
| C47 Suffix-rule lemma labels decode to the lower-cased lemma | proved | `Model/Extractors.lean`, `Model/Lemmas.lean` | C34 plus table lookup |
| C48 The gold rule is never masked | proved | `Model/Extractors.lean`: applicable rules | C36 plus table lookup |
| C49 Character-level lemma labels decode to the lemma | proved | `Model/Extractors.lean`: character labels | induction over the word |
| C50 The selected epoch is the best one | proved | `Model/Evaluation.lean`: `SingleSeedEvaluator` | invariant of the selection loop |
| C51 Exactly the models that are not selected are disposed | proved | `Model/Evaluation.lean`: disposal of models | the same loop with the list of disposed models |
| C52 Averaging returns the mean of every metric | partial | `Model/Evaluation.lean`: `AverageEvaluator` | fold over score tables; two witnesses |
| C53 A tester shows the tagger no gold annotation | proved | `Model/Evaluation.lean`: `_test_data` | two documents that differ only in annotation give the same stripped document |
| C54 Grid search enumerates every combination exactly once | partial | `Model/Grid.lean`: product of the grid, aliasing of merged dictionaries | induction over the grid with a heap of dictionaries; witness |
| C55 Grid merge overrides existing keys only | proved | `Model/Grid.lean`: `merge` | structural induction over nested dictionaries |
| C56 Shuffling permutes the data set locally | proved | `Model/Training.lean`: `ShuffledDataset` | chunk induction for an arbitrary random stream |
| C57 Minibatches partition the training sentences | proved | `Model/Training.lean`: batching | chunk induction |
| C58 Learning rate never increases and stays positive | proved | `Model/Training.lean`: learning-rate schedule | induction over epochs |
| C59 Neural tagging keeps the document structure | proved | `Model/Pipeline.lean`: `NeuralTagger` | C10 applied sentence by sentence |
| C60 The stub parser produces valid trees | proved | `Model/Pipeline.lean`: `StubParser` | chains satisfy C07 |
| C61 The stub tagger assigns a most frequent training tag and the surface text as lemma | proved | `Model/Pipeline.lean`: `StubTagger` and its trainer | counting lemma |
| C62 A complex processor is the composition of its parts | proved | `Model/Pipeline.lean`: `ComplexProcessor` | induction over the parts |
| C63 Batched predictions return to their sentences | proved | `Model/Wrappers.lean`: tdozat data set and result assembly | induction over documents with an offset invariant |
| C64 UDPipe conversion keeps tokens and morphology | proved | `Model/Wrappers.lean`: UDPipe conversion | per-word computation, C10 |
| C65 Saved networks re-attach to the same tensors | proved | `Model/Network.lean`: `NeuralNetwork`, `NeuralNetworkMapping` | names determine tensors of a graph |
| C66 Scores count exactly the aligned words that agree | proved | `Model/UdEval.lean`: scores | counting over the alignment |
| C67 Aligned words share characters | partial | `Model/UdEval.lean`: `align_words` | witness; position invariant |
| C68 With the gold tokenisation evaluation compares word by word | proved | `Model/UdEval.lean`: `evaluate` | the alignment is the diagonal |
| C69 Lemma rules are ordered totally and consistently with equality | proved | `Model/Lemmas.lean`: rule comparison | lexicographic order |
| C70 Embedding files are read completely and consistently | proved | `Model/Extractors.lean`: embedding reader | induction over lines |
| C71 Subword segmentation drops only the word mark | proved | `Model/Extractors.lean`: byte-pair segmentation | induction over segments |
| C72 Lemma dictionary labels decode to the lemma | proved | `Model/Extractors.lean`: lemma dictionary | table lookup |
| C73 Vocabulary ids do not depend on the order of the training data | proved | `Model/Extractors.lean`: vocabularies | counts are permutation invariant; sorted keys are unique |
| C74 The text of a sentence contains its tokens | proved | `Model/Datamodel.lean`: `NavigableSentence.text` | slices of slices |
| C75 After the search exactly the models to be tested are on disk | proved | `Model/Evaluation.lean`, model directory as a set | loop invariant on the directory |
| C76 Validated documents can be evaluated | proved | `Model/ConlluIO.lean`, `Model/UdEval.lean` | C07 trees are accepted by the loader |
| C77 Tagger scores are token accuracies | proved | `Model/Evaluation.lean`, `Model/UdEval.lean` | C68 for documents written with the gold tokens |
| C78 The evaluation loader fails only on too deep trees | proved | `Model/UdEval.lean`: recursion of the root search | depth of the call chain equals tree depth |
| C79 A tag score of 1 means that every tag is right | proved | `Model/Evaluation.lean`, `Model/UdEval.lean` | C77 and counting |
| C80 What the reader takes from a line | proved | `Model/ConlluIO.lean`: parsing one line | case analysis of the columns |
| C81 The grid check rejects overlapping parameters | partial | `Model/Grid.lean`: grid check | witness; path-set characterisation |
| C82 Every local order can occur | proved | `Model/Training.lean`: `ShuffledDataset` | a stream is constructed for every order |
| C83 Training yields one stored tagger per epoch | proved | `Model/Training.lean`: `NeuralTaggerTrainer` | induction over epochs |
| C84 Pretrained models are tested under their own epoch | partial | `Model/Training.lean`: `PretrainedTaggerTrainer` | order of decimal strings; witness |
| C85 Every registered training method can be evaluated | partial | `Model/Pipeline.lean`: training methods | case analysis; witness |
| C86 A perfect network reproduces the gold annotation | proved | `Model/Pipeline.lean`: `NeuralTagger` with gold predictions | C45, C47 and C10 |
| C87 Processors are cleaned up after failures | partial | `Model/Pipeline.lean`: `__enter__`/`__exit__` traces | induction over the parts; witnesses |
| C88 A pipeline accepts any iterable of processors | partial | `Model/Pipeline.lean`: one-shot iterables | witness; C62 |
| C89 Tagging with UDPipe keeps an existing parse | partial | `Model/Wrappers.lean`: UDPipe conversion | computation of the answer; witness |
| C90 Using the graph-based parser outside a with statement says so | partial | `Model/Wrappers.lean`: tdozat processor | computation |
| C91 A loaded model predicts what the saved one predicted | proved | `Model/Network.lean`: save, load, predict | names determine the fed tensors; sessions are arbitrary functions |
| C92 Sessions are closed | proved | `Model/Network.lean`: session events | trace computation |
| C93 Every registered task can be built | partial | `Model/Network.lean`: `build` of every shared and task builder | a builder calculus (`Builds`): success iff a condition holds and the new variable names are fresh |
| C94 Extracted features are exactly what the network is fed | proved | `Model/Network.lean`: placeholders and extracted features | dictionary key sets |
| C95 Asking for feature providers has no side effects | partial | `Model/Network.lean`: `feature_providers` | heap of lists; witnesses |
| C96 Lemmas come from applicable rules, best score first | proved | `Model/Layers.lean`: `predictRule`, `lemmatize`; trie and labels as in C35, C36, C47 | the vector of applicable rules is characterised by trie soundness and completeness; the greatest masked score exceeds the mask, so it belongs to an applicable rule; documents by C59 |
| C97 The loss is the mean over the words of the batch | proved | `Model/Layers.lean`: `denseLoss`, `sumWeighted`, `comboLoss` | induction over the rows of ragged and padded batch |
| C98 The subword vector of a word does not depend on the other words | partial | `Model/Layers.lean`: `averageVectors`, `comboInputs`; Verif/Model/SharedLayers.lean: `subwordCnn`, `subwordRnn`, `subwordAttention` | witnesses (for attention with any softmax); closed forms for all batches |
| C99 Pretrained vectors reach their words | proved | `Model/Layers.lean`: `InitOp.run`, `initializeAll`, `Mat.lookup`; files as in C70 | induction over the rows that are written and over the matrices; distinct variables from C93 |
| C100 The weights file decides the weighted score and nothing else | proved | `Model/EvalMain.lean`: `weightStep`, `loadWeights`, `evaluateWrapper` | induction over the lines; equations between the weight functions of the scores; loaded relations have no colon (C22); witness for negative weights |
| C101 The evaluation program reports the scores | proved | `Model/EvalMain.lean`: `evalMain`, `Metrics.byName`, `reportRow` | lookup in a dictionary with distinct keys |
| C102 delete_after destroys nothing that was there before | partial | `Model/EvalRun.lean`: `RunArgs.main` and everything below it as computations with a trace of writes and removals that survives exceptions | every event of a trace is classified by structural induction over the computation; the disk after a trace is computed by `dirAfter`; witness for failing runs |
| C103 The final report is about the best models | proved | `Model/EvalRun.lean`: `RunArgs.main`, `tryOne`, `choose`, `evaluateParams`, `finalTest` | a search loop refines the selection of C50; removals stay below the place of the losing candidate |
| C104 Exchanging the gold file and the system file | partial | `Model/UdEval.lean`: `evaluate`, `alignWords` | the pairs of both directions are permutations of each other (C33), the counts of C66 are invariant under exchanging them; witnesses with a multi-word token |
| C105 A score depends on its own columns only and rises with corrections | partial | `Model/UdEval.lean`: `evaluate`, `alignWords` | the alignment depends on spans, multi-word tokens and forms only; the agreeing pairs are compared as sublists; witness for CLAS |
| C106 Evaluating several files behind each other pools their counts | partial | `Model/UdEval.lean`: `loadConllu`, `evaluate`, `alignLoop`, `spanLoop` | the grammar of files is closed under appending, with spans and parents shifted; the alignment of the whole is decomposed by induction over the loop (same tokens) or by C33 (no multi-word tokens); the counts of C66 and C26 are additive; witness |
| C107 Printing a document shows its whole text with all tokens and sentences marked | proved | `Model/DocStr.lean`: `Document.str`, `strSentence`, `strToken`, `Pos.repr` | the loops are related to a cutting of the text into pieces by induction over sentences and tokens; the pieces glue to the text |
| C108 Extras and parts of speech share nothing mutable with the caller | proved | `Model/Aliasing.lean`: a heap of mutable dictionaries, `deepcopy`, the constructors and accessors of `TokenExtras` and `Pos`, programs as lists of steps | invariant separating the private objects from those the caller can reach, preserved by every step; what is seen along a path of keys depends on the private part only |
| C109 A grid search evaluates every combination and reports the best one | partial | `Model/GridRun.lean`: `gridMain`, on top of C54, C81 (`Model/Grid.lean`) and C102, C103 (`Model/EvalRun.lean`) | composition of those claims |
| C110 Scores on a gold file compare the tagger with the annotations it was meant to reproduce | partial | `Model/Evaluation.lean`: `dataSetDocs`, `testFile`; `Model/ConlluIO.lean` and `Model/UdEval.lean` for the two parsers | the grammars of reader and loader (C16, C24) are matched line by line; the documents that were read meet the conditions of C76; counting of agreeing rows as in C77; witnesses |
| C111 UAS and LAS are the shares of tokens with the right head and relation | proved | `Model/Evaluation.lean`: `testDataSet`, `testFile` | parents of loaded words are positions shifted by the start of the sentence (C24), so they agree exactly if the numbers agree; induction over sentences |
| C112 Loading a CoNLL-U file, saving it and loading it again changes nothing | partial | `Model/ConlluIO.lean`: `readFromStr`, `writeToStr` | documents that were read satisfy the conditions of C19 (values of lines, `Proofs/Resave.lean`); the tokens of a document that was read leave no gaps, so the lines written for it spell the tokens read back, and two documents spelled by the same lines are written alike (`Proofs/Resave2.lean`) |
| C113 The ids of lemma labels do not depend on the order of the training data | partial | `Model/Extractors.lean`: `buildRules`, `buildLemmaTable`, `id2obj` | the tables have the same elements (spec of `id2obj`), the same first one, and increasing rests; increasing lists of the same elements are equal; witness |
| C114 Calls of the graph-based parser do not influence each other | partial | `Model/WrapperState.lean`: `TdProc.step`, `cachePreds` | invariant over the history: the session is open iff entering came last, and no predictions are left unless a call failed; witness with a network that fails once |
| C115 A with statement around the graph-based parser closes its session | partial | `Model/WrapperState.lean`: `TdProc.step`, `withBlock` | induction over the calls of the block; counterexample by computation |
| C116 Extra fields of the graph-based parser are exactly those asked for | proved | `Model/WrapperState.lean`: `resolveFields`, `mergedFields`, `tdConstruct` | following a path is the relation `Reaches`; lookup in updated dictionaries |
| C117 Failures of UDPipe are reported | partial | `Model/WrapperState.lean`: `loadUdpipe`, `udTagger`, `udParser`, `udTaggerParser` | induction over the documents; the answers enter through their words only |
| C118 The combined UDPipe processor is the tagger followed by the parser | proved | `Model/WrapperState.lean`, `Model/Wrappers.lean`: `toUd`, `fromUd`, `udProcess` | what is written for a token annotated from a tagged word is that word (features by uniqueness of sorting), so the parser sees the same words; what it answers is put into tokens with the same places |
| C119 What is fed to the network fits the announced shapes | partial | `Model/Providers.lean`: `LeafSpec.build`, `Builder.build`, `Provider.feature`, `Provider.label`, `assemble` | structural induction over the merged builder: every value comes from one leaf, with the wrappers around it applied (`Proofs/Providers.lean`); ranges of ids are invariant under padding and sparsification (`Proofs/Providers2.lean`); ranges at the leaves by C43, C47, C48, C70, C72 and the tables of tags; witness |
| C120 Announced shapes and initial values | proved | `Model/Providers.lean`: `assemble`, `mergeInit`, `embInit`, `constInit` | merging is characterised by the disjointness of the keys of all leaves, which merging builders permutes (C39); leaves announce at most one name |
| C121 What is printed does not influence what is found | partial | Verif/Model/Evaluation.lean, EvalRun.lean: `RunArgs.main`, `averageScores` | averages over a list of metrics are computed per metric (`average_full`), so two runs are related step by step by a simulation of effect traces (`Tr.Sim`) in which tables agree on the metrics both have |
| C122 Line ends and saving of results do not influence scores | partial | Verif/Model/Files.lean: `universal`, `onDisk`, `writeToFile`, `readFromFile`, `testTaggerAt`, `testFileAt` | reading undoes writing for texts without carriage returns, by induction for each line end; the writer adds none, by the description of its lines (C19) |
| C123 When a test on a file fails | proved | Verif/Model/Files.lean: `testFileAt`, `testTaggerAt`, `internalOf` | case analysis over the steps; the last step by C28, the blinding by C53 |
| C124 Predicted gold labels give back the gold annotation | proved | Verif/Model/Interpreters.lean: `assembleInterp`, `interpretSentence`, `tagDocument`; `Model/Providers.lean`: `assemble` | merging builders gives an interpreter that runs a permutation of the interpreters of the words (`Proofs/Interpreters.lean`); the labels of a batch of one sentence are one row per label and word (`Interpreters3.lean`); decoding the label of a word gives back its annotation for each kind of label (`Interpreters2.lean`); lists of numbers are unpacked by `Interpreters4.lean`; witness for unknown lemmas |
| C125 A sentence in a batch is treated like the sentence alone | partial | Verif/Model/SharedLayers.lean: `SharedOut.eval`, `sharedPartOf`, `convStack`, `bilstm`, `wordFeatures` | agreement of two sequences on their first places is kept by every layer, each convolution costing its right radius; recurrent layers commute with cutting at the length of the sentence |
| C126 How much context the sentence-level layers see | partial | Verif/Model/SharedLayers.lean: `convStack`, `bilstm`, `sentLevelCnn` | induction over the kernels with the window of each; kernels that look at one place only and cells that sum show that the windows are attained |
| C127 Dropout | proved | Verif/Model/SharedLayers.lean: `dropNumber`, `dropRows`, `keepProb`, `trainFeed`; the random numbers are arbitrary | arithmetic of the floor function |
| C128 Highway layers and skip connections keep the information of their input | proved | Verif/Model/SharedLayers.lean: `highway`, `SharedOut.skipConcat`; the sigmoid is any gate with values in [0, 1] | componentwise arithmetic |
| C129 Mistakes in the settings are noticed before the training | partial | Verif/Model/Settings.lean: `RawArgs.main`, `RawArgs.prepare`, `RawArgs.withTest` | case analysis over the missing keys in the order in which they are read; witnesses |
| C130 Only the documented hyperparameters have an effect | partial | Verif/Model/Hyper.lean: `hyperTrain` and everything below it; JSON values with missing entries and wrong types | a schema of the entries that matter (`Spec/Hyper.lean`); every reader gives the same for two values that agree in its part of the schema (`Proofs/Hyper.lean`) |
| C131 Missing hyperparameters are reported before a model is saved | partial | Verif/Model/Hyper.lean: `hyperTrain`, `trainStepKeys`; needed paths: `requiredPaths` | a successful stage has read its entries: decomposition of each reader (`Proofs/HyperRequired.lean`), the weights, the kernels and the optimizer by C93; the keys of the loop by its first step; witness |
| C132 Documented hyperparameters mean what is documented | partial | Verif/Model/Hyper.lean: `hyperTrain`; the documented form and its meaning are `HyperDoc`, `HyperDoc.toJson`, `HyperDoc.train` (`Spec/HyperDoc.lean`) | evaluation of every reader on the written form (`Proofs/HyperDoc.lean`), C130 for order and further entries; the loop with keys is the loop of C58; witness |
| C133 A tagger looks at the words of a sentence only | proved | Verif/Model/Interpreters.lean: `predictSentence`, `trainedTag`; the network is any function of the features | two builds of the same builder on corresponding objects are related level by level (`Proofs/WordsOnly.lean`), interpreters preserve agreement of text, tag and lemma (`Proofs/Tagger.lean`), positions of tokens from the tiling of sentences |
| C134 A network is trained on what it is asked later | proved | Verif/Model/Feeding.lean: `trainingFeed` (the arguments of `Model.train` in an epoch), with `predictSentence` and `trainedTag` of Verif/Model/Interpreters.lean; the network is any function | extraction from a minibatch is, row by row, extraction from the sentence alone plus padding (`Proofs/Feeding.lean`: `pad_row`, `batch_row`); labels have one width for all words, so nothing is padded inside of a word (`label_width`); steps by `Chunks`; reproduction by C124 |
| C135 A trained tagger says what it has seen, and can always be evaluated | proved | `trainedTag` (Verif/Model/Interpreters.lean) with `prepareTestData`, `testFile` and the scorer; the network is any function | inversion of the label tables: what `decode` returns was put in when the table was built (`decode_from`, `invert_vocabulary`), lifted through the tag splittings (`decode_tagOf`), the composition of interpreters and the assembly of the document (`trained_said`); plain values by case on the provider; scores by C110, annotations of training data by C134_fit |
| C136 Subwords are put together as documented | partial | Verif/Model/SharedLayers.lean: `subwordCnn`, `subwordRnn`, `subwordAttention`, `bilstm`; Verif/Model/Layers.lean: `averageVectors`; the spec (Verif/Spec/Aggregation.lean) describes convolutions by sums over places and components, recurrent layers by folding the cell over a prefix | `convLayer_isConv`, `maxPool_spec`, `dynamicRnn_get` and `bidirectional_get` by induction over the sequence, `comp_sumRows` |
| C137 The model of a run is right about the most words | proved | `RunArgs.main` (Verif/Model/EvalRun.lean) with `testFile`, `prepareTestData` and the scorer of Verif/Model/UdEval.lean; trained taggers are `trainedTag` | the selected model has the greatest comparison score (C103); all scores of one file are shares of the same number of words (`tested_scores`, from C110), so that comparing scores is comparing counts (`more_right`) |
| C138 A tagger whose network keeps to the announced sizes never fails | proved | `trainedTag` (Verif/Model/Interpreters.lean), `assemble` (Verif/Model/Providers.lean), `testFile`; the sizes are those of `Assembled.shapes`, the condition on the answers is Verif/Spec/Total.lean | every leaf gives a value for every word (`feature_total`), lists of words give rows (`uniform_list`), merging keeps this (C39); ids within a size can be interpreted (`allowed_inRange`), so tagging is total (`neuralTag_total`); scores from C135_scores |
| C139 An epoch of training never fails on the data the extractors were built from | proved | `trainingFeed` (Verif/Model/Feeding.lean) with the sparsification of `sparseRate` (Verif/Model/Features.lean); the condition on the providers is `Usable` (Verif/Spec/Total.lean) | features can be computed without sparsification (`features_total`); sparsification keeps the places of lists and finds numbers only, so it never fails and padding succeeds as before (`sparse_total`, by induction on builders); labels of words the tables were built from exist and are within the sizes (`label_within`), so batches of them can be padded (`labels_total`) |
| C140 Training is possible exactly if the data has the annotations the labels need | proved | `LeafSpec.build`, `assemble` (Verif/Model/Providers.lean), the tables in Verif/Model/Extractors.lean; the needs are stated in Verif/Spec/Trainable.lean in terms of documents and lines only | one equivalence per kind of table (`rules_iff`, `lemmas_iff`, `chars_iff`, `vectorFile_iff`, C45_built, C45_not_built), combined with C120_builds; the file version uses that the reader gives every word a tag (`read_docs`) and C139_feed |
| C141 A training run on files does not fail, and each model comes of its epoch | proved | `neuralTrain`, `feedStep`, `epochSents` (Verif/Model/TrainRun.lean), which join `assemble`, `trainingFeed` and `trainLoop`; shuffling is `shuffledIterNth`, the dev tester is `testFile` with `trainedTag`. Every builder of a table iterates over the data set anew, so each has its own order (`Seen`, `Seen.Orders`) | an invariant of the epoch loop says which parameters each tagger has (`AfterEpochs`, `step_trained`, `step_failed`); an epoch is one run of the optimiser over `trainingFeed` (`epoch_feed`); totality combines C56 (every pass is a permutation), C140 (extractors), C139 (steps), C138 (scores) |
| C142 Training takes any iterable of documents | partial | `DataObj`, `buildRulesCached`, `rulesCalls` (Verif/Model/RulesCache.lean): a data set is a key (or none, if it has no hash) and what each iteration gives; other builders may iterate in between | induction over the calls, with the cache only growing; the generator part uses C141_models: a second tagger would have been trained on the documents of an exhausted generator |
| C143 An evaluation run whose parts succeed ends with a report | partial | `RunArgs.main` (Verif/Model/EvalRun.lean); tables of testers are those of `evaluate` | total correctness of the effectful loops (`Tr.Ends`, `RunArgs.search_ends`): a candidate is chosen as long as any two tables can be compared; which metrics have an aligned accuracy by cases on the script (`FromTester.get`), averages by `averageScores_cases`; conversely the first two steps of a successful search are taken apart |
| C144 The rule a network is trained to choose is one it may choose | partial | `trainingFeed` (Verif/Model/Feeding.lean), `applicableRules`, `encodeRule`, `buildRules` (Verif/Model/Extractors.lean), `Provider.lemmaRules`; the cache is Verif/Model/RulesCache.lean | the value of a word in a row of a step is the value its leaf gives for the word (`word_value`: merging, iteration and padding followed down to the leaf, for the mask and for the label), then C47 and C48; a rule that is not known has label 0 by the specification of the table (`unknown_rule`); witnesses |
| C145 With several seeds the reported values are averages of shares of right words | proved | `RunArgs.main` (Verif/Model/EvalRun.lean) with several seeds, `averageScores` (Verif/Model/Evaluation.lean), `testFile` | the report of C103; averages of tables of testers (C52) are averages of shares of the same number of words (`average_share`), so the sums that are compared are the numbers of right words of all seeds divided by the same number (`average_total`, `more_right_together`) |
| C146 The result for several seeds is the average of the results for each seed alone | partial | `RunArgs.shared`, `usedBefore`, `neuralAt` (Verif/Model/SharedData.lean): trainings share the data set and are given how often it has been iterated over before; `RunArgs.main` (Verif/Model/EvalRun.lean); the run with one seed is `RunArgs.alone` (Verif/Spec/SeedsAlone.lean) | the evaluation of one seed does not depend on the place of its files (`single_same`, a simulation of the two loops); the run with one seed and one set of parameters is then computed from it (`alone_main`); the refutation is a run with two seeds on two shuffled documents |
| C147 The models tested at the end are the ones that were selected | partial | `RunArgs.lazyMain` (Verif/Model/LazyRun.lean): a run whose model directory has contents, with taggers that are paths; the reference is `RunArgs.main` (Verif/Model/EvalRun.lean), whose taggers are values. `SameTrainings` is in Verif/Spec/LazyRun.lean | a simulation of the three nested loops (`epoch_store`, `single_store`, `seeds_store`, `params_store`): the best one so far is in the store at its place and each loop changes the store below its own directory only; for equal seeds the place of the best model is a function of the training (`bestPlace`) |
| C148 A run can be repeated | partial | `Experiment.run` (Verif/Model/Repeat.lean): what differs between calls is `World`, the clock and the numbers of the generator that is not seeded; the rest is the run with a shared data set of C146 | a run depends on what its trainer does for the given parameters only (`main_trainer`), and sparsification on which numbers exceed the rate only (`sparseRate_draws`); the refutations are two pairs of runs on two documents |
| C149 Files can be read and written piece by piece | proved | `readFromStr`, `writeToStr` (Verif/Model/ConlluIO.lean) | the loop is split where the first text ends (`readLoop_append`); an invariant says what its state is there (`readSteps_between`, `readLoop_end`); every step of the writer only appends (`writeDocument_before`) |
| C150 The number of sentences per document does not matter for the sentences | partial | `readFromStr` (Verif/Model/ConlluIO.lean) and `Document.new` (Verif/Model/Datamodel.lean); a sentence without its document is a list of `WordView` (Verif/Spec/Limit.lean) | the grammar of C16 says which documents are read; the view of a sentence is a function of its lines (`DocOf.views`), and whether a document is accepted depends on its sentences one by one (`DocRaw.good`, `docRaw_exists`), because without negative heads a root can be seen in the sentence (`plain_of_canon`) |
| C151 The representation of an object tells what it is | partial | `Token.repr`, `Sentence.repr`, `Document.repr`, `LemmaRule.repr`, `LemmaRule.str` (Verif/Model/Repr.lean) | each representation can be told from what follows it (`tokenRepr_split`, `sentenceRepr_split`), because quoted strings can and a number ends at the first character that is not part of a number; lists by induction (`items_split`) |
| C152 CLAS and WeightedLAS are LAS of content words and of weighted words | proved | `testDataSet`, `testFile` (Verif/Model/Evaluation.lean, Verif/Model/Files.lean), `evaluateWrapper`, `loadWeights` (Verif/Model/EvalMain.lean); arcs are the HEAD numbers and relations of Verif/Spec/FileScore.lean | C68_weighted gives the weights of words that agree; the words of both treebanks are the arcs of the documents in order (`eval_arcs`), so sums over words are sums over arcs |
| C153 The ids of tag labels: the most frequent value has id 0, and the order of the training data does not matter | partial | `buildPosTable`, `PosTable.encode`, `PosTable.decode`, `countParts`, `id2obj` (Verif/Model/Extractors.lean); the parts of tags and when two tags agree in one are `partNames` and `samePart` (Verif/Props/TagOrder.lean) | the counts of a part are the numbers of training words that agree with a tag in it (`countParts_counts`); tables made of the same counts in another order are equal element by element up to equality of tags (`id2obj_same`), because sorted lists are determined by their elements (`sorted_forall₂`) and tags are ordered (C14) |
| C154 Documents and updates take tokens of every class | proved | `TokObj`, `DocObj` (Verif/Model/TokenClass.lean): tokens with their class, and documents that keep the objects they were given; class methods are looked up in the class of the object | forgetting the classes commutes with sorting, the checks, filling in heads and the updates (`pySorted_objLe`, `fillObjHeads_token`, `DocObj.new_forget`); the text of a token comes from its container (`DocObj.getToken_text`) |
| C155 Reading a file is lazy and the file is closed | proved | `FileReader`, `readOn` (Verif/Model/ReaderGen.lean): the generator as an object with a position and a file that is open or closed | an invariant of the generator (`FileReader.Started`: suspended with an open file or over with a closed one) kept by `next` and `close`; each call of `next` is one step of `readLoop` (`readOn_readLoop`); the lines used by a step are found by induction (`readOn_used`) |
| C156 Rounding of floating-point numbers does not decide which model is selected | proved | `flScore`, `flSum`, `flBetter`, `flMean` (Verif/Model/Floats.lean): the arithmetic of scores with a rounding after every operation; the selection loops are those of C50 with this comparison | the error of a rounded sum grows with the square of the number of summands (`flFold_error`, `flMean_error`, induction), while different numbers of right answers differ by one over the number of words (`flFold_lt`); a comparison by a number selects the first greatest (`Run.select`) |
| C157 Scores are bounded by what the training data contains, and inflections seen in training reach unseen words | proved | `trainedTag` (a tagger with any network), `testFile`, `buildRules`, `lemmatize`; `InflectedAlike` and `allForms` are specified beside the theorems (Verif/Props/Unseen.lean), `lemmaFrom` in Verif/Spec/Vocabulary.lean | scores of C135 are numbers of words whose columns agree; by C135_tag and C135_lemma every predicted value is one that can be had from the training data, so agreeing words are among those with such a gold value (`sameCount_le_known`, `sameCount_le_possible`, induction); words inflected alike have the same rule (`rule_alike`), whose count exceeds the threshold, so it has an id and C96_gold applies |
| C158 The command lines of the evaluation and grid search programs | proved | `classifyArg`, `parseArgs` (the part of argparse that is used), `evalProgram`, `gridProgram` (Verif/Model/CommandLine.lean); how options can be spelled is `SpelledOpt`, `NamesOpt`, `FreeWord` (Verif/Spec/CommandLine.lean) | what an argument is taken for is characterised by its spelling (`classify_name`, `classify_joined`, `classify_value`, `classify_opt`); the loop is followed in both directions by induction (`parseArgs_spelled`, `parseArgs_spells`); effects are those of C102 |
| C159 Annotating again changes nothing, and layers do not disturb each other | proved | `trainedTag` (Verif/Model/Interpreters.lean), `stubTag`, `stubParse` (Verif/Model/Pipeline.lean); `Reparsed`, `SameUnlabelled`, `andThen` are in Verif/Spec/Again.lean | predictions depend on words only (C133_document); interpreters keep what they are not for (`composite_kept`, `interpretSentence_kept`, induction), so a result is determined by the words and the unlabelled fields (`trainedTag_shape`, `document_eq`); heads that the first tagging made canonical are kept exactly (`KeepsHead.again`) |
| C160 The graph-based tagger and parser keep the annotation they do not make | partial | `tdProcess` (Verif/Model/Wrappers.lean); the columns of the network are the keys of the predictions, as in C63; `Forgets` and `Retains` are in Verif/Spec/Forget.lean | C63_returned says from which line a word is annotated; by C80 a line says what its columns say, columns without predictions are `_` (`cell_blank`, `cell_said`); written heads are read back (`pyInt_normIndex`) |
| C161 The order of the sentences or files that are evaluated does not matter | partial | `loadConllu` and `evaluate` (Verif/Model/UdLoad.lean, UdEval.lean); a list of pairs of files is put behind each other by `joined` (Verif/Spec/UdOrder.lean) | Induction over the list with C106_partial: the counts of a score of the whole are the sums of the counts of the parts (`blocks_eval`); the counts of a part are unique (`Counts.unique`), so those of a permuted list are permuted and have the same sum |
| C162 All models of a run can be loaded afterwards, or none if they are to be deleted | partial | `RunArgs.lazyRun` (Verif/Model/LazyRun.lean): the report and the contents of the model directory after the run | Induction over epochs, seeds and hyperparameters (`epochs_keep`, `seeds_keep`, `search_keep`): each training adds its models at places that no later one uses, as the names of epochs and hyperparameters are injective; the frame by an invariant of all loops (`lazyParams_outside`) |
| C163 The evaluation does not look at comments, empty nodes, DEPS, MISC, subtypes of relations and spaces in words | proved | `loadConllu` (Verif/Model/UdEval.lean), `evaluate`, `evaluateWrapper`, `evalMain` (Verif/Model/EvalMain.lean); which lines may differ is said by `Unscored` (Verif/Spec/Unscored.lean) | Simulation: the two runs of the loader over the lines stay in states that differ in unevaluated columns only (`unscored_run`, induction over `Unscored`); alignment, parents and all scores are congruent for such words (`alignWords_gold`, `fillParents_like`, `keyScore_like`) |
| C164 Hyperparameters of a wrong type, negative sizes and unknown names are reported before a model is saved | proved | `hyperTrain` (Verif/Model/Hyper.lean), which reads everything from the JSON value; which entry has to be what is listed in Verif/Spec/HyperTypes.lean | Every function that reads a section succeeds only on values of the right type (`aggregator_typed`, `features_typed`, `kind_typed`, `task_typed`); the entries are found at the paths of the specification as in C131; the loop saves nothing before its entries are read (`loop_keys`) |
| C165 With lower thresholds and more training documents nothing that was known is lost | proved | `subwordVocabulary`, `trainableVocabulary`, `lemmaVocabulary`, `buildRules`, `encodeRule`, `interpretRule` (Verif/Model/Extractors.lean) | The words of a vocabulary are sorted and without duplicates, so a subset is a sublist (`vocabWords_sublist`), and a sublist gives an order embedding of the ids; the same for the sorted rest of a table of rules; witness |
| C166 More parameter sets never give a worse result | partial | `RunArgs.main` (Verif/Model/EvalRun.lean), `gridMain` (Verif/Model/GridRun.lean), `RunArgs.shared` (Verif/Model/SharedData.lean); `NotWorse` and `OnlyBest` are in Verif/Spec/MoreParams.lean | The selected epochs and the dev scores of a parameter set are unique (`BestAt.unique`, `DevScores.unique`), so the maximum that C103 states for each run can be compared across runs (`not_worse`); the combinations of a grid are among those of an extension (`product_subset`); the refutation evaluates two runs on a shuffled data set |
| C167 A longer training begins with the shorter one and never gives a worse result | proved | `trainLoop`, `neuralAt`, `roundsOf`, `RunArgs.main`, `RunArgs.shared` (Verif/Model/Training.lean, SharedData.lean, EvalRun.lean) | The loop over a longer range is the loop over the shorter one continued (`loopUntil_append`), every epoch extends what was done (`trainStep_begins`); the best of more rounds is at least as good (`BestAt.longer`), the total of averages is the average of totals (`average_val`) |
| C168 Adding words to a file of pretrained vectors leaves the vectors and numbers of the words it had | proved | `readEmbeddings`, `embeddingIds`, `initialValues` (Verif/Model/Extractors.lean), `wordId`, `Mat.lookup` | Reading the longer file continues the loop from the state of the shorter one (`forM'_append`); by induction over the added lines the keys of the dictionary only grow at the end (`readLines_more`), so positions stay; with C70 and C99 for the matrix |
| C169 The stub tagger is the best tagger that gives all words the same tag | partial | `stubTrain`, `stubTagAll` (Verif/Model/Pipeline.lean), `prepareTestData` (Verif/Model/Evaluation.lean) | C61 says which tag is chosen and what the tagger gives, C53 that documents without annotation have the same words; one tag for all words is right as often as it occurs (`rightTags_uniform`); the share by summing the occurrences of all tags |
| C170 Equal documents are interchangeable | partial | `Document.pyEq` (Verif/Model/Datamodel.lean), `writeToStr`, `prepareTestData`, `testTagger`, `stubTag`, `trainedTag` | C12 says what equality sees; two runs of the writer over equal documents keep states that agree but for the order of features (`WAlike`), which sorting removes; for taggers, equal documents given the same tags and lemmas are equal (`retagged_equal`), with `trainedTag_two` of C159 for the network |
| C171 The order of the names in a grid file does not matter | partial | `checkGrid`, `gridParams` (Verif/Model/Grid.lean, with dictionaries in a heap), `gridMain` (Verif/Model/GridRun.lean) | C54 says that each combination overrides the base file one value after the other; by induction over the dictionaries this means which settings have which values (`Overrides.valueAt`, `OverridesAll.valueAt`) and the order disappears; dictionaries with the same keys and settings are equal (`SameKeys.ext`); with C166 for the reports |
| C172 Documents are processed independently of each other | proved | `stubTagAll`, `stubParseAll`, `processAll` (Verif/Model/Pipeline.lean), `udProcessAll` (Verif/Model/Wrappers.lean), `trainedTag`, `prepareTestData` | The loops give one result per document (`mapM'_ok_iff`); for pipelines by induction over the processors, splitting the intermediate documents; parts and orders by induction over the lists |
| C173 The names of tags, features and lemmas do not matter for the scores | proved | Verif/Model/UdEval.lean: `evaluate`; the renaming is `RelabelledUD` (`Spec/Relabel.lean`) | the alignment sees spans and forms only (`alignWords_congr`, `alignWords_gold`), the counts of C66 are compared pair by pair |

## Remarks on individual claims

* C04: Accepts exactly the described inputs; defaults and the empty document separately; Token and Sentence constructors exactly; every failure of Document(...) is ValueError or, for tokens with an empty sentence list, IndexError (C04_errors); validation only rejects.
* C05: False as stated (C05_refuted gives the witness); the partial theorem says what the check does guarantee, and C05_numbered_iff_first that the first token is the only exception.
* C07: Sound and complete: validation accepts iff every sentence is headless or a tree.
* C10: For non-empty token lists, which is what the statement is about; the empty list is covered by C10_empty_list_drops_everything. Exact acceptance condition and exception kinds: C10_accepts_iff, C10_errors.
* C11: False in general (C11_refuted); the partial theorem gives the exact condition.
* C12: Equivalence relation proved; the agreement half is false for the sentence head (C12_refuted_*), the rest is proved; C12_equality_iff says exactly what == decides, C12_sees_everything_when_roots_agree when the full claim holds.
* C15: Values of extras are immutable atoms in the model, so aliasing of nested objects is not covered.
* C16: Acceptance is characterised exactly (grammar, grouping, constructor); sizes and counts follow; also what was yielded before an error.
* C18: The two exceptions in the statement are shown to be needed.
* C19: For any number of documents; C19_spacing_needed shows that the spacing condition of the second half is needed.
* C20: False in general (C20_refuted): a multiword token at the end of a sentence is written again in the next one. Proved when no sentence but the last ends in a multiword token; that condition is necessary (C20_once_iff), and C20_word_lines counts the repeated lines exactly.
* C22: False in general (C22_refuted_fails, C22_refuted_head). Proved for LEMMA, UPOS, XPOS, DEPREL, DEPS when FEATS is selected or no token has a part of speech; C22_writes_iff shows that writing fails exactly otherwise (TypeError), C22_made_up_heads what HEAD contains when it is not selected.
* C23: Proved for any recursion limit of at least two calls.
* C24: HEADs of words inside multi-word tokens may be negative; C24_negative_heads_accepted shows that the restriction in the statement is needed. Acceptance needs sentences no longer than the recursion limit.
* C28: Termination is the absence of the out-of-fuel outcome.
* C31: Exact rationals instead of floats.
* C32: Exact rationals instead of floats.
* C36: Whole-word regular rules are excluded in the statement, as the trie never returns them.
* C37: False in general (C37_refuted): an exception is offered for every word whose longest known end is the excepted word. The partial theorem gives the exact condition.
* C38: Nested lists as values; aliasing of list objects is not modelled.
* C39: Leaves with their wrapper chains (C39_leaves), totality (C39_total) and the features actually extracted (C39_union). Leaf extractors are arbitrary functions.
* C41: Also when the collected lists are followed by padding; C41_no_features shows that the assumption of a name is needed.
* C42: Random numbers are an arbitrary stream of rationals.
* C44: False in general (C44_words_unknown, C44_refuted): the vocabulary is built from single characters. The partial theorem gives what holds for one-character words.
* C45: False with granular splitting if a feature is named UPOS or XPOS (C45_refuted); proved for everything else, with range theorems and totality of decoding (which holds for such features, too).
* C50: Scores are exact rationals instead of floats.
* C52: False for metrics without aligned accuracy (Tokens, Sentences: TypeError) and for repeated metric names; the mean is proved for distinct metrics that have an aligned accuracy in every table. C52_succeeds_iff says exactly when averaging succeeds, C52_value_partial gives the result in all of these cases: the mean times the number of times the metric is listed.
* C54: False in general: a dictionary that replaces another kind of value is shared by all combinations (C54_refuted). Proved for grids in which this does not happen, in particular for grids of the shape of the base parameters.
* C55: Nesting deeper than the recursion limit is excluded.
* C56: The random generator is an arbitrary stream; the data set is a list that can be read without exceptions.
* C57: Feature extraction and the optimiser are a parameter.
* C58: Rates and accuracies are exact rationals. C58_formula gives the rate of every epoch; the decay compounds.
* C59: Feature extraction and the network are a parameter that gives the predictions for a sentence. C59_any_prediction covers every prediction, C59_no_outputs shows the silent loss of all tokens when the network has no outputs.
* C61: C61_trainer includes the error for a training set without tokens. C61_renamed: other names for the tags of the training data.
* C62: Streams are consumed completely. Failing enter and exit are C87, iterators are C88.
* C63: The network is a table of predictions, in whatever order the batches were processed. C63_itersents: the rows handed to the network. How the library numbers the empty sentence that follows every document is not modelled; the theorem is about a table that numbers the sentences consecutively.
* C64: The UDPipe model is an arbitrary function on sentences. C64_any_answer: an answer with missing words either fails or drops all tokens.
* C65: Tensors and operations are a graph identity and a name.
* C66: Exact rationals instead of floats.
* C67: False in general (C67_refuted); proved for files with the same tokens in which every token has a word.
* C68: CLAS and WeightedLAS in C68_weighted.
* C69: C69_sorted: the sorted list of a set of rules. The ids of the label table are the subject of C113.
* C70: The number parser is a parameter.
* C71: The byte-pair model is a parameter.
* C75: The trainer is assumed to save each epoch before yielding it, as NeuralTaggerTrainer does.
* C76: C76_heads_needed shows that the condition on heads cannot be dropped: validation accepts a head index below -1 that points before the document as a root.
* C78: HEADs are assumed non-negative in the equivalence (see C24).
* C81: False in general: only the first entry of each dictionary is looked at (C81_refuted). Proved: the exact condition for acceptance, and that values with a single setting do not overlap.
* C83: Saving and loading a tagger is assumed to keep its parameters and to raise nothing.
* C84: False for more than ten models: names are sorted as strings, epoch-10 comes before epoch-2 (C84_refuted). C84_epoch_order_partial shows that it holds exactly up to ten models.
* C85: False for stub, whose trainer returns bare taggers (C85_refuted); C85_partial covers the other methods.
* C87: False when entering or exiting raises (C87_refuted, C87_refuted_exit); proved otherwise.
* C88: False for iterators (C88_refuted: processors are entered and never applied nor exited); C88_partial for collections.
* C89: False: the words handed to UDPipe carry no heads, and the heads of the answer replace those of the tokens (C89_erased). C89_from_answer_partial: they survive if the model predicts them again.
* C90: False: AttributeError is raised, because the message refers to a name instances do not have (C90_refuted). C90_partial: an error is raised in any case and nothing is returned.
* C91: What a session computes is an arbitrary function of the values fed by name; saving keeps it (checkpoints are trusted).
* C92: Event traces of opening and closing sessions; C92_once: exactly one session per use.
* C93: False: the registered task lemma_binary cannot be built (C93_refuted, C93_registered), nor dense tasks without the optional loss weights (C93_refuted_weights). C93_iff characterises all configurations that can be built (layers are abstracted to the variables they create and the sizes that must match); C93_partial: a family of ordinary configurations.
* C94: Layers are abstracted to the placeholders they read. C94_own_tensors: nothing that is fed or fetched shares a tensor.
* C95: False: the second call returns the providers of the tasks twice (C95_refuted) and one-shot iterables raise ValueError (C95_refuted_iterator). C95_partial: the first call, with collections.
* C96: Scores are rational numbers and argmax any function that returns the position of a greatest element. At least one rule that fits the word must have a score above the least float (C96_applicable, C96_documents).
* C97: The cross entropies of the words are arbitrary numbers; arithmetic is exact.
* C98: False for all: C98_average_refuted, C98_cnn_refuted, C98_rnn_refuted, C98_attention_refuted, C98_characters_refuted. C98_aggregation_partial: every aggregation depends on the word and the length of the longest word only; C98_average_partial: the mean is taken over the length of the longest word; C98_characters_partial: holds if some word is as long as max_word_length or the vector of the padding is zero.
* C99: TensorFlow scatter_update and embedding_lookup are modelled on lists of rows.
* C100: float is any function from strings to rational numbers or exceptions. C100_subtypes is about loaded treebanks, C100_negative_refuted shows that C24 cannot be extended to negative weights.
* C101: Formatting of the numbers and argparse are not modelled.
* C102: All is proved, the last part for successful runs (C102_clean_partial). A failing run leaves models behind and cannot be repeated (C102_failure_refuted, C102_again). rmtree is assumed to succeed.
* C103: Scores are rational numbers. The averaged scores are what the averager returns, see C52. The models on disk are stated for distinct seeds.
* C104: Proved for files without multi-word tokens, and whenever both directions align the same words. False with multi-word tokens (C104_refuted), and for the aligned accuracy of CLAS (C104_clas_refuted).
* C105: Proved for all scores but CLAS and the weighted score, for which correcting a relation can lower the score (C105_clas_refuted).
* C106: Proved for files without multi-word tokens, and for any second files if the first files have the same tokens (no token without words), with non-negative HEADs. False if the tokens of the first files differ and there are multi-word tokens (C106_refuted). C106_twice_partial: files behind themselves.
* C107: repr of strings is arbitrary; for C107_tags it must be self-delimiting and begin with a quote, as in Python. The constructor does not check tokens against the text; slices beyond the end are empty, as in Python.
* C108: In a heap model; the value model of the other claims is justified by it. With mutable values inside the features of a part of speech the claim would be false (C108_pos_shared); the annotation of the constructor excludes them.
* C109: The refusals and the safety of the disk are proved for all grids. The report (C109_partial) is proved for grids that never put a dictionary in place of another value; for others the combinations influence each other (C54_refuted).
* C110: False for Feats and AllTags of a perfect tagger if the FEATS of the gold file are not in code point order (C110_refuted_feats); C110_oracle gives the exact condition, C110_sorted_feats when it holds. Everything else is proved. Line ends are the newline character (files are opened with universal newlines). The documents are read before the tagger runs.
* C111: Documents that can be written and loaded as in C77.
* C112: Holds if all words have heads and no sentence but the last of a document ends in a multiword token (same annotation, and the second save gives the same file), with equality if moreover the last word of a document is followed by a space and no form begins with whitespace.  Each condition is shown to be needed by a file for which the claim fails.
* C113: False if two rules (lemmas) are equally frequent: id 0 goes to the first one (C113_refuted). Proved if one is more frequent than all others (C113_rules_partial, C113_lemmas_partial).
* C114: False after a failed call: its predictions stay and are mixed into the next call, even after exiting and entering again (C114_refuted). C114_partial: holds for every history in which no call within a session failed; C114_first_partial ties the first call to C63, C114_failure_partial: exceptions of the network are passed on.
* C115: False if entering fails: the session stays open and the object usable (C115_refuted). C115_partial: proved for every block if entering succeeds.
* C116: C116_construct, for any flags with different names; the flags of both classes are shown to have different names. C116_parser_flag, C116_tagger_flags: the layer every flag stands for.
* C117: False: loading never raises (C117_load_refuted) and reported failures change nothing (C117_ignored_refuted). C117_missing_partial: without a model AttributeError is raised exactly if a document has a sentence.
* C118: C118_composition. C118_order_needed: without the normal form of features the claim fails.
* C119: C119_features in full. Labels: C119_labels_partial; the dictionary of lemmas built from training data with a single lemma labels any other lemma with 1, outside the announced size (C119_refuted).
* C120: C120_builds, C120_shapes, C120_initial.
* C121: False in two cases: with several seeds a metric that is compared but not printed makes the search fail (C121_refuted), and a metric listed repeatedly counts repeatedly (C121_refuted_repeated). Proved for metrics listed once if both runs succeed (C121_partial); C121_fewer_partial says when leaving out metrics lets the run succeed.
* C122: False for annotations that contain carriage returns (C122_refuted). Proved for all others: C122_line_ends, C122_saved, C122_partial, C122_file_partial.
* C123: C123_succeeds_iff, C123_unreadable, C123_tagger, C123_characters.
* C124: C124_builds, C124_interpreter, C124_no_labels, C124_any_prediction, C124_labels, C124_oracle, C124_training; C124_unknown_refuted shows that the condition on the annotation is needed.
* C125: False for words near the end of a sentence under Dilated_CNN (C125_dilated_refuted) and with subwords if another sentence has a longer word (C125_subwords_refuted). C125_partial proves it in all other cases, C125_words without conditions for recurrent layers over word embeddings.
* C126: C126_bilstm, C126_window, C126_window_exact. The part about BiLSTM_CNN is false: C126_sentence_cnn_refuted shows that its convolutions run over the components of the vector of one word.
* C127: C127_prediction, C127_training, C127_each, C127_mean.
* C128: C128_highway, C128_skip, C128_skip_sum, C128_residual.
* C129: Proved for all keys needed before the search: C129_missing_partial (and C129_complete: with all keys the run is the one of C101 to C104; C129_printed). False for a test set without path (C129_test, C129_test_refuted: noticed after the whole search, models stay), for misspelt fields (C129_field_refuted) and metrics (C129_metric_refuted: unnoticed with one epoch).
* C130: C130_known and C130_unknown for all entries except the names of other arguments of the trainer, which are rejected (C130_reserved). The documented section Morfessor_subwords is ignored: C130_morfessor_refuted.
* C131: C131_required_partial and C131_missing_partial for every needed entry (requiredPaths in Spec/HyperRequired.lean). The documented default of lr_decrease_factor does not exist: C131_factor_refuted, KeyError after an epoch without progress, with its model saved. C131_at_once: entries the constructors ask for are missed before any file is opened.
* C132: C132_documented_partial for all documented configurations in which random subword vectors are trainable. trainable false is ignored for them: C132_trainable_refuted. C132_thresholds: fractional thresholds are compared as they are. C132_word_width, C132_subword_width: vectors are as long as those of the file; C132_no_vectors: a file without vectors is a TypeError.
* C133: C133_prediction, C133_sentence, C133_document, C133_position; C133_unpredicted shows that what has no label is kept. Sparsification (training only) is left out.
* C134: C134_steps, C134_features, C134_labels, C134_learned, C134_fit. The learning rate and the dropout probability, which are given to the network beside the labels, are left out.
* C135: C135_tag, C135_lemma, C135_kept, C135_plain, C135_scores, C135_fitted. Segments of lemmas are those of an arbitrary segmenter that cuts lemmas into parts of them; lower-casing is an arbitrary function that adds neither tabs nor newlines. For granular splitting no feature may be called UPOS or XPOS (C45).
* C136: C136_cnn, C136_attention, C136_words, C136_padding, C136_concat: as documented (the padding of shorter words counts as subwords, C98). C136_rnn_partial: aggregation rnn is a max pooling; C136_rnn_refuted: it is never the documented sum of final states, since it has twice as many components. The average is the documented mean only for the longest words of a batch (C98_average_partial, C98_average_refuted).
* C137: C137_best, C137_trained. One seed; with several seeds the averages are compared (C52, C103). Trained taggers: training data read from CoNLL-U, answers about at least one word of each document.
* C138: C138_features, C138_distinct, C138_tags, C138_scores. That the network keeps to the sizes is a hypothesis about the answers (NetWithin); what layers compute is C125, C136. For granular splitting features named UPOS or XPOS are allowed.
* C139: C139_feed, C139_labels. Documents may come in any order and may be a selection, but must be among the documents the extractors were built from; an example shows that other documents can fail.
* C140: C140_needed, C140_enough, C140_iff, C140_file, C140_gap. For tags numbered as a whole (joint, xf) the condition on missing parts is sufficient; C140_gap shows that without it building can fail. Whether it fails then depends on which tags the sort compares, so there is no exact condition in terms of the data alone.
* C141: C141_models, C141_trains, C141_file. Each table is built from an iteration of its own over the shuffled data. The network (building, optimiser step, answers) is a parameter; that it does not raise is a hypothesis. Examples: three epochs over a file; a decay of -1 that fails in the second epoch; an empty file of vectors.
* C142: False as stated: a list has no hash and fails with lemma rules (C142_list_refuted), a generator fails in the second epoch at the latest (C142_generator_refuted). Proved for what has a hash: the rules are numbered once (C142_partial), by one of the iterations (C142_pass). That training succeeds for data sets that can be iterated over again is C141_trains.
* C143: False as stated for a list of seeds (C143_refuted, C143_compared_refuted). Proved for one seed (C143_one); for a list of seeds C143_partial says exactly which settings work: printed metrics need an aligned accuracy (not Tokens, Sentences, Words), and with several parameter sets the compared metrics must be printed. C143_testers: the tables of both testers are of the assumed form.
* C144: False as stated: with a threshold, a word whose rule is rare is labelled with the most frequent rule, which its mask may hide (C144_rare_refuted). Proved for words whose rule is known, and rare ones get rule 0 (C144_partial); this needs the cache shared by both builders (C142_partial), without it shuffling could hide any rule (C144_uncached_refuted).
* C145: C145_average. Printed metrics are distinct metrics of the report; if one of them has no aligned accuracy the run does not end with a report (C143).
* C146: False as stated if the training set is shuffled: all trainings of a run share one shuffled data set whose generator moves on with every iteration, so the second seed gets other orders than in a run of its own (C146_shuffled_refuted: 5/6 instead of 1). Proved for trainings that depend on seed and parameters only (C146_average) and for shared data sets that are the same whenever they are iterated over (C146_partial); a file without shuffler is one (C146_file).
* C147: Proved as an equivalence with runs that keep all models in memory (C147_partial, C147_tested) if trainings with the same seed have the same results, in particular for different seeds and for trainings that depend on seed and parameters only (C147_seeds). False for equal seeds on a shuffled data set (C147_equal_refuted, C147_equal_outcome): their trainings differ (C146) and have the same directories, so a selected model can be gone (with --delete_after) or replaced by another one.
* C148: False as stated: a shuffler without seed takes the clock as seed (C148_clock_refuted), and sparsification draws from the generator of the process, which no seed reaches (C148_sparse_refuted). Proved if the shuffler has a seed or there is none, and no value is replaced at random (C148_partial), and for sparsification whenever the same values are replaced (C148_draws). That TensorFlow repeats its results for the same seed is assumed.
* C149: C149_prefix, C149_behind, C149_single, C149_shards, C149_write; that the conditions are needed is C149_open_refuted.
* C150: False for negative numbers in the column HEAD: with two sentences in a document, HEAD -1 in the second one can make its word a root, read alone the sentence is rejected (C150_negative_refuted). Proved for texts without negative heads (C150_partial) and for all texts that can be read sentence by sentence (C150_one). Spaces at the end of a sentence are not compared: after the last word of a document there is no space in the text (C18).
* C151: False as stated: extras are not represented (C151_extras_refuted), the order of features is, although it does not count (C151_order_refuted), and different lemma rules can be printed alike (C151_rule_printed_refuted). Proved: the representation of a token or document determines everything but the extras (C151_token_partial, C151_document_partial), that of a lemma rule determines it (C151_rule). Quoting of strings is an arbitrary function with the property of the repr of Python.
* C152: C152_clas, C152_clas_file, C152_weighted; C152_hidden shows that a content word taken for a function word does not lower the precision. The conversion of numbers in the weights file is a parameter.
* C153: False as stated: if two values are equally frequent, the one that comes first has id 0, with every splitting (C153_order_refuted), and if only some words have a language-specific tag, it depends on the order whether the labels can be built at all (C153_built_refuted). Proved: what has id 0 (C153_first), and that the order does not matter if one value of each part is the most frequent one and the tags that are compared are present everywhere or nowhere (C153_order_partial). With the granular splitting features named UPOS or XPOS are excluded, as in C45.
* C154: C154_documents, C154_text, C154_updates, C154_classes.
* C155: C155_documents, C155_lazy, C155_closed; C155_unstarted is the case of an iterator that was never started. Garbage collection is not modelled.
* C156: C156_selected_epoch, C156_selected_params; that rounding can break a tie of several fields is C156_tie_refuted. Rounding is any function with relative error at most u (2 ^ -53 for double precision without underflow, which shares of words cannot reach); sum adds one number after the other, as in Python before 3.12.
* C157: C157_tags, C157_lemmas, C157_reachable. The bounds are about files of the evaluation program; words of the test file are tagged blind.
* C158: C158_parse, C158_order, C158_eval, C158_kept, C158_grid; that the grid search program keeps models without --delete_after is refuted by C158_grid_kept_refuted. argparse is modelled as in Python 3.7; messages and exit codes are left out.
* C159: C159_annotations, C159_again, C159_again_empty, C159_last_wins, C159_order, C159_parsed, C159_stub_parser, C159_stub_tagger, C159_stub_parsed, C159_stub_twice; C159_order_matters shows that taggers which set the same do not commute. A first tagger whose network says nothing drops all words (see C10), which is why the words must be kept.
* C160: False (C160_refuted): columns that the network neither reads nor predicts are emptied. Proved (C160_kept_partial): exactly these columns are emptied, for all documents and orders of batches, and a column in which the network passes on what it was given is kept.
* C161: False (C161_refuted): with multi-word tokens and different tokenization words of one file can be aligned with words of the next, which depends on the order. Proved (C161_order_partial) for any number of files and any order, without multi-word tokens or with the same tokens in gold and system files.
* C162: False for equal seeds on a shuffled data set (C162_equal_refuted): the second training replaces the models of the first one. Proved (C162_kept_partial) for seeds with different texts, for all trainings; runs with --delete_after (C162_deleted) and models elsewhere (C162_outside) for all seeds.
* C163: For all files, including those that the loader or the evaluation rejects: the report and the exceptions are equal.
* C164: What is read before the first epoch (C164_early), in the first epoch (C164_late) and the consequence for wrong entries (C164_wrong); C164_size says what is no size, C164_factor shows when the factor of the learning rate is found. That TensorFlow rejects negative sizes and sizes that are no whole numbers is part of the model.
* C165: Vocabularies (C165_vocabularies, C165_lemma_characters, C165_unknown, C165_all); rules (C165_rules, C165_rules_more, C165_right); C165_forgotten is the exception with a witness.
* C166: False if the training set is shuffled: all trainings of a run share one shuffled data set, so an additional parameter set in front gives the others other orders of the data (C166_shuffled_refuted: 2/3 instead of 1). Proved for trainings that depend on seed and parameters only (C166_more, C166_same, C166_without, C166_grid_partial) and for shared data sets that are the same whenever they are iterated over (C166_partial). C166_grid_partial is about grids that never put a dictionary in place of another value, see C54_refuted.
* C167: The training (C167_epochs, C167_rounds, and C167_hyper for the entry epochs of the hyperparameters); runs (C167_longer: for one seed the tables are equal or both have a comparison score, for several seeds it is about the comparison scores of the averages, for distinct print_fields); shuffled data (C167_shuffled). That both runs end with a report is assumed, see C141 and C143.
* C168: C168_may_add says which lines may be added; C168_more compares vectors and numbers; C168_matrix the rows of the initialized matrices (under the conditions of C99, established by C99_initialized); C168_order is about the order of the lines.
* C169: False for the universal tags alone (C169_upos_refuted: of three nouns in different cases and two verbs the verb is chosen). Proved for whole tags (C169_best_partial, C169_share, C169_single) and lemmas (C169_lemmas, for all documents).
* C170: False for documents with a sentence head below -1 that leads to the root of the document (C170_refuted). Proved where roots of the document are roots of their sentences (C170_written_partial, C170_scores_partial), which holds for all documents without sentence heads below -1 (C170_roots); without any restriction for documents given to a tagger (C170_blind) and for the answers of the stub tagger and of trained taggers (C170_stub, C170_trained), and for the training of the stub tagger (C170_train, C170_train_tag); C170_tagger_respects, C170_trained_respects, C170_parser_respects, C170_udpipe_respects (models that answer with one word per word) and C170_pipeline for pipelines.
* C171: False if two names of the grid are about the same setting, which the check can miss (C171_order_refuted), and where a dictionary meets another value (C54_refuted). Proved for names about different settings whose values have the shape of the base file: the settings of every parameter set (C171_settings_partial), the order of the names (C171_order_partial, C171_report_partial; C171_check for all grids), further names (C171_name_partial).
* C172: C172_tagger, C172_parser, C172_udpipe, C172_trained and C172_test_data for the processors, C172_pipeline for pipelines, C172_parts and C172_order for lists in parts and in other orders. The graph-based parser works on all documents at once and is not meant here; see C63 and C114 for it. C172_not_vacuous shows a processor without the property.
* C173: C173_renamed: all scores, and the error for files with different text; C173_coarser: for any mapping. FEATS are the features that are compared, i.e. the universal ones in order, and words are compared after loading. C173_relations: other names for relations. C173_testers: the same for the scores that the testers count.

## Axioms of each theorem

As printed by `#print axioms`: p = `propext`, c = `Classical.choice`, q = `Quot.sound`, - = none.

* C01: `C01_tokens_ordered` pcq
* C02: `C02_permutation_independent` pcq
* C03: `C03_sentences_partition` pcq
* C04: `C04_accepts_iff` pcq, `C04_defaults` pq, `C04_no_sentences` pq, `C04_token_accepts` pq, `C04_sentence_accepts` pq, `C04_errors` pcq, `C04_validation_only_rejects` pcq
* C05: `C05_refuted` pq, `C05_multiword_numbered_partial` pcq, `C05_numbered_iff_first` pcq
* C06: `C06_heads_agree` pcq
* C07: `C07_validation_iff_forest` pcq, `C07_tree_heads` pq
* C08: `C08_heads_same_token` pcq, `C08_head_edge_cases` p
* C09: `C09_get_token` pq, `C09_token_navigation` pcq, `C09_sentence_navigation` pcq
* C10: `C10_from_document_structure` pcq, `C10_empty_list_drops_everything` pq, `C10_accepts_iff` pcq, `C10_errors` pcq
* C11: `C11_refuted` pq, `C11_rewrap_identity_partial` pcq
* C12: `C12_token_equivalence` pcq, `C12_document_equivalence` pcq, `C12_refuted_token` p, `C12_refuted_document` pq, `C12_equality_sees_everything_partial` pcq, `C12_equality_iff` pcq, `C12_sees_everything_when_roots_agree` pcq
* C13: `C13_updates` pq, `C13_last_wins` pq, `C13_commute` pq
* C14: `C14_equality` pcq, `C14_hash` pcq, `C14_lt_defined` pcq, `C14_trichotomy` pcq, `C14_transitive` pcq
* C15: `C15_extras_update` pcq
* C16: `C16_accepts_iff` pcq, `C16_chunk_sizes` pcq, `C16_before_an_error` pcq
* C17: `C17_yielded_documents_valid` pcq
* C18: `C18_text_from_forms` pcq, `C18_exceptions_needed` pcq
* C19: `C19_round_trip` pcq, `C19_round_trip_equal` pcq, `C19_spacing_needed` pcq
* C20: `C20_refuted` pcq, `C20_blocks_partial` pcq, `C20_word_lines` pcq, `C20_once_iff` pcq
* C21: `C21_ten_columns` pcq
* C22: `C22_refuted_fails` pcq, `C22_refuted_head` pcq, `C22_selection_partial` pcq, `C22_writes_iff` pcq, `C22_made_up_heads` pcq
* C23: `C23_unparsed_loads` pcq
* C24: `C24_loaded_trees` pcq, `C24_accepts` pcq, `C24_negative_heads_accepted` pcq
* C25: `C25_spans_tile` pcq, `C25_words` pcq
* C26: `C26_common_spans` pcq, `C26_swap` pcq
* C27: `C27_monotone` pcq
* C28: `C28_total` pcq
* C29: `C29_compatible` pcq
* C30: `C30_longest` pcq, `C30_span_length` pcq
* C31: `C31_self` pcq
* C32: `C32_bounded` pcq, `C32_ordered` pcq
* C33: `C33_span_matching` pcq
* C34: `C34_round_trip` pq, `C34_transform` pq
* C35: `C35_sound` pcq
* C36: `C36_complete` pcq
* C37: `C37_refuted` pcq, `C37_partial` pcq
* C38: `C38_padding` pcq
* C39: `C39_leaves` pq, `C39_total` pcq, `C39_only_value_error` pq, `C39_none` p, `C39_union` pcq
* C40: `C40_disjoint_union` pcq
* C41: `C41_inverse` pcq, `C41_no_features` pq
* C42: `C42_sparse` pcq, `C42_rate_zero` pcq
* C43: `C43_vocabulary` pcq, `C43_word_id` pcq, `C43_subword_ids` pcq
* C44: `C44_words_unknown` pcq, `C44_refuted` pcq, `C44_partial` pcq
* C45: `C45_partial` pcq, `C45_labels_in_range` pcq, `C45_predictions_rejected` pcq, `C45_predictions_decode` pcq, `C45_built` pcq, `C45_not_built` pcq, `C45_refuted` pcq
* C46: `C46_table` pcq, `C46_built` pcq
* C47: `C47_round_trip` pcq, `C47_training_rules` pcq, `C47_any_label` pq, `C47_label_in_range` pcq
* C48: `C48_gold_not_masked` pcq
* C49: `C49_characters` pcq, `C49_exact` pcq, `C49_no_lemma` -
* C50: `C50_selected_epoch` pcq, `C50_selected_params` pcq, `C50_succeeds` pcq, `C50_missing_scores` pcq, `C50_no_epochs` pcq, `C50_seed_scores` pcq
* C51: `C51_disposed` pcq, `C51_every_prefix` pcq
* C52: `C52_refuted_unaligned` pcq, `C52_refuted_repeated` pcq, `C52_mean_partial` pcq, `C52_succeeds_iff` pcq, `C52_value_partial` pcq
* C53: `C53_blind` pcq
* C54: `C54_combinations` pcq, `C54_grid_partial` pcq, `C54_same_shape_partial` pcq, `C54_determined` pcq, `C54_refuted` p
* C55: `C55_merge` pcq, `C55_error_iff` pcq, `C55_unique` pcq
* C56: `C56_local_permutation` pcq, `C56_batches` pcq, `C56_size_rejected` pq, `C56_every_pass` pcq
* C57: `C57_minibatches` pcq, `C57_determined` pcq, `C57_every_sentence` pcq, `C57_not_positive` pcq, `C57_mean_loss` pcq, `C57_no_sentences` pcq
* C58: `C58_formula` pcq, `C58_positive_nonincreasing` pcq, `C58_constant` pcq
* C59: `C59_tagged` pcq, `C59_any_prediction` pcq, `C59_no_outputs` pq
* C60: `C60_valid` pcq
* C61: `C61_trainer` pcq, `C61_tagger` pcq, `C61_renamed` pq
* C62: `C62_compose` pq, `C62_nested` p, `C62_with` p
* C63: `C63_returned` pcq, `C63_itersents` pcq
* C64: `C64_words` pcq, `C64_input` pcq, `C64_identity` pcq, `C64_any_answer` pcq
* C65: `C65_attach` pq, `C65_attach_same` pq, `C65_feed` pcq, `C65_feed_predict` pcq, `C65_feed_unknown` pcq
* C66: `C66_counts` pcq
* C67: `C67_refuted` pcq, `C67_partial` pcq
* C68: `C68_wordwise` pcq, `C68_weighted` pcq
* C69: `C69_sorted` pcq, `C69_rule_order` pcq
* C70: `C70_fields` pq, `C70_read` pq, `C70_accepts` pq, `C70_initial_values` pq
* C71: `C71_bpe` pq
* C72: `C72_lemma_dictionary` pcq, `C72_unknown_lemma` pcq
* C73: `C73_order_independent` pcq
* C74: `C74_sentence_text` pcq
* C75: `C75_selected_models_kept` pcq
* C76: `C76_valid_loads` pcq, `C76_heads_needed` pcq
* C77: `C77_tag_scores` pcq
* C78: `C78_accepts_iff` pcq, `C78_only_recursion` pcq, `C78_deep` pcq
* C79: `C79_perfect_iff` pcq
* C80: `C80_line_content` pcq, `C80_accepts` pcq, `C80_unique` pcq
* C81: `C81_check_partial` pcq, `C81_single_partial` pcq, `C81_refuted` -
* C82: `C82_every_order` pcq, `C82_small_data_set` pcq
* C83: `C83_one_tagger_per_epoch` pcq, `C83_selected_tagger_is_stored` pcq, `C83_without_tester_refuted` pcq, `C83_empty_training_set` pcq
* C84: `C84_epoch_order_partial` pcq, `C84_refuted` pcq
* C85: `C85_refuted` pcq, `C85_partial` pcq
* C86: `C86_perfect` pcq
* C87: `C87_refuted` p, `C87_refuted_exit` p, `C87_partial` pq, `C87_failing_enter` p
* C88: `C88_refuted` p, `C88_partial` p
* C89: `C89_erased` pcq, `C89_from_answer_partial` pcq
* C90: `C90_refuted` pcq, `C90_partial` pcq
* C91: `C91_same_predictions` pcq, `C91_own_graph` pq
* C92: `C92_load` pq, `C92_lazy` pq, `C92_once` pq
* C93: `C93_iff` pcq, `C93_refuted` pcq, `C93_registered` pcq, `C93_refuted_weights` pcq, `C93_unknown` pcq, `C93_partial` pcq
* C94: `C94_fed` pcq, `C94_outputs` pcq, `C94_own_tensors` pcq
* C95: `C95_partial` pcq, `C95_refuted` p, `C95_refuted_iterator` pq
* C96: `C96_applicable` pcq, `C96_gold` pcq, `C96_none` pcq, `C96_documents` pcq
* C97: `C97_mean` pcq, `C97_padding` pcq, `C97_weighted` pcq, `C97_characters` pcq
* C98: `C98_average_refuted` pcq, `C98_characters_refuted` pq, `C98_average_partial` pcq, `C98_characters_partial` pq, `C98_cnn_refuted` pcq, `C98_rnn_refuted` pcq, `C98_attention_refuted` pcq, `C98_aggregation_partial` pq
* C99: `C99_initialized` pcq, `C99_words` pq, `C99_errors` pq, `C99_distinct` pcq
* C100: `C100_file` pcq, `C100_columns` pcq, `C100_weighted` pcq, `C100_subtypes` pcq, `C100_negative_refuted` pcq
* C101: `C101_report` pcq
* C102: `C102_refused` pcq, `C102_safe` pcq, `C102_writes` pcq, `C102_kept` pcq, `C102_results` pcq, `C102_clean_partial` pcq, `C102_failure_refuted` pcq, `C102_again` pcq, `C102_predictions` pcq, `C102_predictions_apart` pcq
* C103: `C103_report` pcq, `C103_errors` pcq
* C104: `C104_same_pairs` pcq, `C104_partial` pcq, `C104_refuted` pcq, `C104_clas_refuted` pcq
* C105: `C105_own_column` pcq, `C105_corrections` pcq, `C105_clas_refuted` pcq
* C106: `C106_load` pcq, `C106_same_pairs` pcq, `C106_partial` pcq, `C106_between` pcq, `C106_refuted` pcq, `C106_twice_partial` pcq
* C107: `C107_printed` pcq, `C107_without_tokens` pcq, `C107_forms_hidden` pcq, `C107_tags` pcq, `C107_order_shown` pcq
* C108: `C108_extras_stored` pq, `C108_extras_fixed` pq, `C108_item` pq, `C108_update` pq, `C108_pos_stored` pq, `C108_pos_fixed` pq, `C108_pos_shared` pq
* C109: `C109_invalid` pcq, `C109_safe` pcq, `C109_refused` pcq, `C109_partial` pcq
* C110: `C110_same_words` pcq, `C110_against_columns` pcq, `C110_gold_values` pcq, `C110_token_scores_partial` pcq, `C110_oracle` pcq, `C110_sorted_feats` pcq, `C110_empty_feats` pcq, `C110_refuted_feats` pcq, `C110_comments_needed` pcq
* C111: `C111_parser_scores` pcq, `C111_parser_scores_file` pcq, `C111_no_syntax` pq
* C112: `C112_resave_partial` pcq, `C112_resave_equal_partial` pcq, `C112_last_word_needed` pcq, `C112_leading_space_needed` pcq, `C112_heads_needed` pcq, `C112_ends_needed` pcq
* C113: `C113_rules_partial` pcq, `C113_lemmas_partial` pcq, `C113_refuted` pcq
* C114: `C114_partial` pcq, `C114_first_partial` pcq, `C114_failure_partial` pcq, `C114_refuted` pcq
* C115: `C115_partial` pcq, `C115_refuted` pcq
* C116: `C116_parser_flag` pcq, `C116_tagger_flags` pcq, `C116_construct` pcq
* C117: `C117_load_refuted` p, `C117_missing_partial` pcq, `C117_ignored_refuted` pcq
* C118: `C118_composition` pcq, `C118_order_needed` pcq
* C119: `C119_features` pcq, `C119_labels_partial` pcq, `C119_sparsifies` pcq, `C119_refuted` pcq
* C120: `C120_builds` pcq, `C120_shapes` pcq, `C120_initial` pcq
* C121: `C121_partial` pcq, `C121_fewer_partial` pcq, `C121_refuted` pcq, `C121_refuted_repeated` pcq
* C122: `C122_line_ends` pcq, `C122_saved` pcq, `C122_partial` pcq, `C122_file_partial` pcq, `C122_refuted` pcq
* C123: `C123_succeeds_iff` pcq, `C123_unreadable` pcq, `C123_tagger` pcq, `C123_characters` pcq
* C124: `C124_builds` pcq, `C124_interpreter` pq, `C124_no_labels` pcq, `C124_any_prediction` pcq, `C124_labels` pcq, `C124_oracle` pcq, `C124_training` pcq, `C124_unknown_refuted` pcq
* C125: `C125_partial` pcq, `C125_words` pcq, `C125_dilated_refuted` pcq, `C125_subwords_refuted` pcq
* C126: `C126_window` pcq, `C126_window_exact` pcq, `C126_bilstm` pcq, `C126_sentence_cnn_refuted` pcq
* C127: `C127_prediction` pcq, `C127_training` pcq, `C127_mean` pcq, `C127_each` pcq
* C128: `C128_highway` pcq, `C128_skip` pcq, `C128_skip_sum` pcq, `C128_residual` pcq
* C129: `C129_complete` pcq, `C129_missing_partial` pcq, `C129_test` pcq, `C129_printed` pcq, `C129_test_refuted` pcq, `C129_field_refuted` pcq, `C129_metric_refuted` pcq
* C130: `C130_known` pcq, `C130_unknown` pcq, `C130_morfessor_refuted` pcq, `C130_reserved` pcq
* C131: `C131_at_once` pcq, `C131_required_partial` pcq, `C131_missing_partial` pcq, `C131_factor_refuted` pcq
* C132: `C132_documented_partial` pcq, `C132_trainable_refuted` pcq, `C132_thresholds` pcq, `C132_word_width` pcq, `C132_subword_width` p, `C132_no_vectors` pcq
* C133: `C133_prediction` pcq, `C133_sentence` pcq, `C133_document` pcq, `C133_position` pcq, `C133_unpredicted` pcq
* C134: `C134_steps` pcq, `C134_features` pcq, `C134_labels` pcq, `C134_learned` pcq, `C134_fit` pcq
* C135: `C135_tag` pcq, `C135_lemma` pcq, `C135_kept` pcq, `C135_plain` pcq, `C135_scores` pcq, `C135_fitted` pcq
* C136: `C136_cnn` pcq, `C136_words` pcq, `C136_padding` pcq, `C136_rnn_partial` pcq, `C136_rnn_refuted` pcq, `C136_attention` pcq, `C136_concat` pq
* C137: `C137_best` pcq, `C137_trained` pcq
* C138: `C138_features` pcq, `C138_distinct` pcq, `C138_tags` pcq, `C138_scores` pcq
* C139: `C139_feed` pcq, `C139_labels` pcq
* C140: `C140_needed` pcq, `C140_enough` pcq, `C140_iff` pcq, `C140_file` pcq, `C140_gap` pcq
* C141: `C141_models` pcq, `C141_trains` pcq, `C141_file` pcq
* C142: `C142_partial` pq, `C142_pass` pq, `C142_list_refuted` p, `C142_generator_refuted` pcq
* C143: `C143_testers` pcq, `C143_one` pcq, `C143_partial` pcq, `C143_refuted` pcq, `C143_compared_refuted` pcq
* C144: `C144_partial` pcq, `C144_rare_refuted` pcq, `C144_uncached_refuted` pcq
* C145: `C145_average` pcq
* C146: `C146_average` pcq, `C146_partial` pcq, `C146_file` pcq, `C146_shuffled_refuted` pcq, `C146_order` pq
* C147: `C147_partial` pcq, `C147_seeds` pcq, `C147_tested` pcq, `C147_equal_refuted` pcq, `C147_equal_outcome` pcq
* C148: `C148_draws` pcq, `C148_partial` pcq, `C148_clock_refuted` pcq, `C148_sparse_refuted` pcq
* C149: `C149_prefix` pcq, `C149_behind` pcq, `C149_single` pcq, `C149_write` pcq, `C149_shards` pcq, `C149_open_refuted` pcq
* C150: `C150_partial` pcq, `C150_one` pcq, `C150_negative_refuted` pcq
* C151: `C151_token_partial` pcq, `C151_document_partial` pcq, `C151_extras_refuted` pcq, `C151_order_refuted` pcq, `C151_rule` pcq, `C151_rule_printed_refuted` pcq
* C152: `C152_clas` pcq, `C152_clas_file` pcq, `C152_weighted` pcq, `C152_hidden` pcq
* C153: `C153_first` pcq, `C153_order_partial` pcq, `C153_order_refuted` pcq, `C153_built_refuted` pcq
* C154: `C154_documents` pq, `C154_white_space` pcq, `C154_text` pcq, `C154_updates` pq, `C154_classes` pq
* C155: `C155_closed` pcq, `C155_unstarted` pcq, `C155_documents` pcq, `C155_lazy` pcq
* C156: `C156_selected_epoch` pcq, `C156_selected_params` pcq, `C156_tie_refuted` pcq
* C157: `C157_tags` pcq, `C157_lemmas` pcq, `C157_reachable` pcq
* C158: `C158_parse` pcq, `C158_order` pcq, `C158_eval` pcq, `C158_kept` pcq, `C158_grid` pcq, `C158_grid_kept_refuted` pcq
* C159: `C159_annotations` pcq, `C159_again` pcq, `C159_again_empty` pcq, `C159_last_wins` pcq, `C159_order` pcq, `C159_parsed` pcq, `C159_stub_parser` pcq, `C159_stub_tagger` pcq, `C159_stub_parsed` pcq, `C159_stub_twice` pcq, `C159_order_matters` pcq
* C160: `C160_kept_partial` pcq, `C160_refuted` pcq
* C161: `C161_order_partial` pcq, `C161_refuted` pcq
* C162: `C162_kept_partial` pcq, `C162_deleted` pcq, `C162_outside` pcq, `C162_equal_refuted` pcq
* C163: `C163_scores` pcq, `C163_report` pcq
* C164: `C164_early` pcq, `C164_late` pcq, `C164_wrong` pcq, `C164_size` pcq, `C164_factor` pcq
* C165: `C165_vocabularies` pcq, `C165_lemma_characters` pcq, `C165_unknown` pcq, `C165_all` pcq, `C165_rules` pcq, `C165_rules_more` pcq, `C165_right` pcq, `C165_forgotten` pcq
* C166: `C166_more` pcq, `C166_same` pcq, `C166_without` pcq, `C166_grid_partial` pcq, `C166_partial` pcq, `C166_shuffled_refuted` pcq
* C167: `C167_hyper` pcq, `C167_epochs` pcq, `C167_rounds` pcq, `C167_longer` pcq, `C167_shuffled` pcq
* C168: `C168_may_add` pq, `C168_more` pcq, `C168_order` pq, `C168_matrix` pcq
* C169: `C169_best_partial` pcq, `C169_share` pcq, `C169_single` pcq, `C169_lemmas` pcq, `C169_upos_refuted` pcq
* C170: `C170_written_partial` pcq, `C170_blind` pcq, `C170_scores_partial` pcq, `C170_roots` pcq, `C170_stub` pcq, `C170_trained` pcq, `C170_refuted` pcq, `C170_tagger_respects` pcq, `C170_trained_respects` pcq, `C170_parser_respects` pcq, `C170_pipeline` pq, `C170_train` pcq, `C170_train_tag` pcq, `C170_udpipe_respects` pcq
* C171: `C171_settings_partial` pcq, `C171_check` pcq, `C171_order_partial` pcq, `C171_report_partial` pcq, `C171_name_partial` pcq, `C171_order_refuted` pq
* C172: `C172_tagger` pq, `C172_parser` pq, `C172_udpipe` pcq, `C172_trained` pcq, `C172_test_data` pq, `C172_pipeline` pq, `C172_parts` p, `C172_order` -, `C172_not_vacuous` -
* C173: `C173_coarser` pcq, `C173_renamed` pcq, `C173_relations` pcq, `C173_testers` pcq
