import Verif.Model.Providers
import Verif.Model.Pipeline

/-!
# Model of the interpreters that features/builder.py and features/provider.py assemble, and of tagging with them

`Builder.interp` is the second component of what `build` returns.
-/

namespace Verif

/-- What is interpreted: tokens, and lists (sentences, batches) of what is interpreted. -/
inductive Words where
  | tok (t : TextToken)
  | seq (l : List Words)

/-- The interpreters of builder.py and extractors.py. -/
inductive Interp where
  | nothing
  | word (w : WordInterp)
  | iter (i : Interp)
  | comp (l : List Interp)

/-- builder.py:357-363 `DoNothingInterpreter`. -/
def Interp.isNothing : Interp → Bool
  | .nothing => true
  | _ => false

/-- An interpreter of words; a list of tokens has no text. -/
def runWord (lower : Str → Str) (w : WordInterp) (p : Words) (v : Features) : Res Words :=
  match p with
  | .seq _ => .error .attribute
  | .tok t =>
    match w.interpret lower t v with
    | .error e => .error e
    | .ok t' => .ok (.tok t')

/-- builder.py:312-315 `IterableInterpreter.interpret` with the element interpreter `f`; a token cannot be iterated
over. -/
def runIter (f : Words → Features → Res Words) (p : Words) (v : Features) : Res Words :=
  match p with
  | .tok _ => .error .type
  | .seq l =>
    match asSequences v with
    | .error e => .error e
    | .ok s =>
      match iterInterpret f l s with
      | .error e => .error e
      | .ok l' => .ok (.seq l')

mutual
/-- builder.py: the `interpret` methods (239-243, 312-315, 362-363). -/
def Interp.run (lower : Str → Str) : Interp → Words → Features → Res Words
  | .nothing, p, _ => .ok p
  | .word w, p, v => runWord lower w p v
  | .iter i, p, v => runIter (Interp.run lower i) p v
  | .comp l, p, v => Interp.runL lower l p v
/-- builder.py:239-243: the loop. -/
def Interp.runL (lower : Str → Str) : List Interp → Words → Features → Res Words
  | [], p, _ => .ok p
  | i :: is, p, v =>
    match Interp.run lower i p v with
    | .error e => .error e
    | .ok p' => Interp.runL lower is p' v
end

/-- builder.py:218-224 `_composite_interpreter`. -/
def compositeInterp (is : List Interp) : Interp :=
  match is.filter (fun i => !i.isNothing) with
  | [] => .nothing
  | [i] => i
  | l => .comp l

/-- builder.py:206-210: a single part is used as it is; no parts cannot be unpacked. -/
def compInterp : List Interp → Res Interp
  | [] => .error .value
  | [i] => .ok i
  | is => .ok (compositeInterp is)

mutual
/-- builder.py: the interpreters of the `build` methods (119-121, 163-165, 206-210, 280-282, 373-374). -/
def Builder.interp (lf : Nat → Res Interp) : Builder → Res Interp
  | .padding b => b.interp lf
  | .sparse b => b.interp lf
  | .iter b =>
    match b.interp lf with
    | .error e => .error e
    | .ok i => .ok (.iter i)
  | .comp l =>
    match Builder.interpL lf l with
    | .error e => .error e
    | .ok is => compInterp is
  | .empty => .ok .nothing
  | .leaf _ id => lf id
def Builder.interpL (lf : Nat → Res Interp) : List Builder → Res (List Interp)
  | [] => .ok []
  | b :: bs =>
    match b.interp lf with
    | .error e => .error e
    | .ok i =>
      match Builder.interpL lf bs with
      | .error e => .error e
      | .ok is => .ok (i :: is)
end

/-- extractors.py: the interpreters of the `build` methods of labels (361, 408, 469, 549); features have none (28, 65,
132, 157, 188, 512). -/
def LeafSpec.interp (lower : Str → Str) (dataset : List Document) : LeafSpec → Res Interp
  | .posDict n splitting =>
    match buildPosTable splitting (posLabels dataset) with
    | .error e => .error e
    | .ok table => .ok (.word (.pos n table))
  | .lemmaDict n =>
    match buildLemmaTable ((datasetTokens dataset).map (fun t => t.2.lemma')) with
    | .error e => .error e
    | .ok table => .ok (.word (.lemmaDict n table))
  | .suffix n threshold =>
    match buildRules lower threshold dataset with
    | .error e => .error e
    | .ok table => .ok (.word (.lemmaRule n table))
  | .lemmaChars n threshold _ segment =>
    match lemmaVocabulary segment threshold dataset with
    | .error e => .error e
    | .ok voc => .ok (.word (.lemmaChars n (invert voc)))
  | _ => .ok .nothing

/-- The interpreter of the labels of provider `id`. -/
def providerInterp (lower : Str → Str) (seen : Seen) (ps : List Provider) (id : Nat) : Res Interp :=
  match ps[id]?.bind Provider.labelSpec with
  | none => .error .key
  | some s => s.interp lower (seen s)

/-- provider.py:17, 29-31 `FeatureExtractorBuilderProvider`: the label interpreter. -/
def assembleInterp (lower : Str → Str) (seen : Seen) (ps : List Provider) : Res Interp :=
  match mergeBuilders (ps.zipIdx.map (fun p => Provider.label p.2 p.1)) with
  | .error e => .error e
  | .ok l => l.interp (providerInterp lower seen ps)

/-! ### Tagging -/

/-- The token an iteration gives. -/
def pieceToken : Words → Res TextToken
  | .tok t => .ok t
  | .seq _ => .error .attribute

/-- The elements of one element of `chain.from_iterable`. -/
def pieceTokens : Words → Res (List TextToken)
  | .tok _ => .error .type
  | .seq l => mapM' pieceToken l

/-- neural_tagger.py:30 `chain.from_iterable(...)`, as a list of tokens. -/
def chainTokens : Words → Res (List TextToken)
  | .tok _ => .error .type
  | .seq l => (mapM' pieceTokens l).map List.flatten

/-- neural_tagger.py:28 `[sentence]`: the batch that consists of one sentence; the handles of the tokens are their positions in the document. -/
def sentenceBatch (s : Sentence) : Obj :=
  .mk 0 [.mk 0 ((List.range' s.start (s.stop - s.start)).map (fun k => .mk k []))]

/-- neural_tagger.py:30 `interpret([sentence], prediction)` and `chain.from_iterable`. -/
def interpretSentence (lower : Str → Str) (i : Interp) (ts : List TextToken) (pred : Features) :
    Res (List TextToken) :=
  match i.run lower (.seq [.seq (ts.map .tok)]) pred with
  | .error e => .error e
  | .ok p => chainTokens p

/-- neural_tagger.py:28-30: the body of the loop over the sentences. -/
def predictAndInterpret (lower : Str → Str) (i : Interp) (predict : Document → Sentence → Res Features) (d : Document)
    (s : Sentence) : Res (List TextToken) :=
  match predict d s with
  | .error e => .error e
  | .ok pred => interpretSentence lower i (slice d.textTokens s.start s.stop) pred

/-- neural_tagger.py:24-32 `NeuralTagger.tag` for one document, with any interpreter. -/
def tagDocument (lower : Str → Str) (i : Interp) (predict : Document → Sentence → Res Features) (d : Document) :
    Res Document :=
  match mapM' (predictAndInterpret lower i predict d) d.sentences with
  | .error e => .error e
  | .ok tss => d.fromDocument (tss.flatten.map Prod.snd)

/-! ### The whole tagger -/

/-- The token with this position in the document; other positions do not occur, `other` stands for them. -/
def docTok (other : TextToken) (d : Document) (j : Nat) : TextToken := d.textTokens.getD j other

/-- builder.py:178, 186-192: without `sparse_rate` the rate is 0 and a value is kept, unless the random number is exactly
0.  Simplification: it is not. -/
def keepAll : Sparsify := fun _ _ v => .ok v

/-- neural_tagger.py:28-29: the features of a sentence, and what the network predicts for them; `net` is
`Model.predict`. -/
def predictSentence {F : Type} (lower : Str → Str) (float : Str → Res F) (zero : F) (other : TextToken)
    (seen : Seen) (ps : List Provider) (net : Features → Res Features) (d : Document) (s : Sentence) :
    Res Features :=
  match assemble lower float zero (docTok other d) keepAll seen ps with
  | .error e => .error e
  | .ok r =>
    match r.features (sentenceBatch s) with
    | .error e => .error e
    | .ok f => net f

/-- neural_tagger.py:24-32, 100-101: the tagger whose features and labels are made of the training data by the
providers, applied to one document.  Simplification: extractor and interpreter are made for every document, with the same
result. -/
def trainedTag {F : Type} (lower : Str → Str) (float : Str → Res F) (zero : F) (other : TextToken)
    (seen : Seen) (ps : List Provider) (net : Features → Res Features) (d : Document) : Res Document :=
  match assembleInterp lower seen ps with
  | .error e => .error e
  | .ok i => tagDocument lower i (predictSentence lower float zero other seen ps net) d

end Verif
