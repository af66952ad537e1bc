import Verif.Model.Training
import Verif.Model.Interpreters

/-! # What a network is trained on (neural_tagger.py) -/

namespace Verif

/-- A sentence of the training data as an object to extract from: the handles of its tokens are their positions among the
tokens of all documents, `off` of which stand in the documents before. -/
def sentenceObj (off : Nat) (s : Sentence) : Obj :=
  .mk 0 ((List.range' (off + s.start) (s.stop - s.start)).map (fun k => .mk k []))

/-- neural_tagger.py:168-169: the sentences of the documents, in the order of iteration. -/
def sentenceObjs : Nat → List Document → List Obj
  | _, [] => []
  | off, d :: docs => d.sentences.map (sentenceObj off) ++ sentenceObjs (off + d.tokens.length) docs

/-- The token with this position in the documents; other positions do not occur, `other` stands for them. -/
def datasetTok (other : TextToken) (docs : List Document) (j : Nat) : TextToken := (datasetTokens docs).getD j other

/-- neural_tagger.py:163-165 `extract`: the features and the labels of a minibatch. -/
def extractBatch (features labels : Extractor) (sents : List Obj) : Res (Features × Features) :=
  match features (.mk 0 sents) with
  | .error e => .error e
  | .ok f =>
    match labels (.mk 0 sents) with
    | .error e => .error e
    | .ok l => .ok (f, l)

/-- neural_tagger.py:141-147, 161-176; model.py:29-30: what `Model.train` is called with during an epoch, step by step.
`docs` is what the iteration over the documents gives in this epoch, `seen` what it gave when the extractors were built
(neural_tagger.py:100-101).  `sp` is the sparsification of the features; labels are extracted without `sparse_rate`
(neural_tagger.py:165).  Simplification: the learning rate and the dropout probability, which are added to the labels
(145-146), are left out. -/
def trainingFeed {F : Type} (lower : Str → Str) (float : Str → Res F) (zero : F) (other : TextToken) (sp : Sparsify)
    (seen : Seen) (ps : List Provider) (batchSize : Int) (docs : List Document) :
    Res (List (Features × Features)) :=
  match assemble lower float zero (datasetTok other docs) sp seen ps with
  | .error e => .error e
  | .ok r =>
    match assemble lower float zero (datasetTok other docs) keepAll seen ps with
    | .error e => .error e
    | .ok r' => mapM' (extractBatch r.features r'.labels) (minibatches batchSize (sentenceObjs 0 docs))

end Verif
