import Verif.Model.Layers

/-!
# Model of the layers between the extracted features and the tasks

utils.py:22-153 (convolutions, aggregation of subwords, recurrent layers, highway layers), shared_builders.py:88-205
(the shared part of the network) and the dropout in them.  Numbers are exact rationals.  What is learned enters as
arbitrary values: vectors of words (`emb`), weights of convolutions, the step function of a recurrent cell, dense
layers.  A sequence of vectors is a list of lists; a batch is a list of sentences.
-/

namespace Verif

/-- A sequence of vectors. -/
abbrev Rows := List (List Rat)

/-! ### Convolutions -/

/-- `tf.nn.relu` of a number. -/
def relu (x : Rat) : Rat := max x 0

/-- utils.py:24-27: the configuration of a convolution and its weights, which are indexed by the place in the kernel,
the component of the input and the component of the output. -/
structure ConvKernel where
  size : Nat
  count : Nat
  dilation : Nat
  weight : Nat → Nat → Nat → Rat

/-- The distance between the first and the last place of a kernel. -/
def ConvKernel.span (k : ConvKernel) : Nat := (k.size - 1) * k.dilation

/-- `padding='SAME'`: as many zeros are added in front of the sequence. -/
def ConvKernel.left (k : ConvKernel) : Nat := k.span / 2

/-- The zeros that are added behind it. -/
def ConvKernel.right (k : ConvKernel) : Nat := k.span - k.left

/-- A row of the sequence; outside of it there are zeros (the sum over no components). -/
def rowAt (x : Rows) (i : Int) : List Rat := if 0 ≤ i then x.getD i.toNat [] else []

/-- The product of a vector with weights. -/
def dotWith (w : Nat → Rat) (v : List Rat) : Rat := (v.zipIdx.map (fun p => p.1 * w p.2)).sum

/-- utils.py:28-29 `tf.nn.relu(tf.nn.conv2d(...))` at one place. -/
def convRow (k : ConvKernel) (x : Rows) (i : Int) : List Rat :=
  (List.range k.count).map (fun c => relu (((List.range k.size).map (fun j =>
    dotWith (fun ch => k.weight j ch c) (rowAt x (i + (j * k.dilation : Nat) - (k.left : Nat))))).sum))

/-- utils.py:28-29 on the whole sequence. -/
def convLayer (k : ConvKernel) (x : Rows) : Rows := (List.range x.length).map (fun i => convRow k x (i : Nat))

/-- utils.py:22-31 `apply_conv_layer`. -/
def convStack (ks : List ConvKernel) (x : Rows) : Rows := ks.foldl (fun y k => convLayer k y) x

/-- `tf.reduce_max` of numbers; of no numbers it is the least float here (minus infinity in the code). -/
def maxOf : List Rat → Rat
  | [] => floatMin
  | x :: xs => xs.foldl max x

/-- `tf.reduce_max(..., 2)`: the maximum of each of `width` components over the sequence. -/
def maxPool (width : Nat) (x : Rows) : List Rat := (List.range width).map (fun c => maxOf (x.map (fun v => v.getD c 0)))

/-- The number of components after convolutions. -/
def lastCount (ks : List ConvKernel) : Nat := (ks.getLast?.map ConvKernel.count).getD 0

/-! ### Recurrent layers -/

/-- `tf.nn.rnn_cell.LSTMCell`: a state and a step, both learned. -/
structure RnnCell where
  State : Type
  init : State
  step : State → List Rat → State × List Rat
  size : Nat

/-- `dynamic_rnn` with `sequence_length` `n`: at places from `n` on the output is zero and the state is kept. -/
def dynamicRnn (c : RnnCell) (n : Nat) : Nat → c.State → Rows → Rows
  | _, _, [] => []
  | t, s, v :: vs =>
    if t < n then (c.step s v).2 :: dynamicRnn c n (t + 1) (c.step s v).1 vs
    else List.replicate c.size 0 :: dynamicRnn c n (t + 1) s vs

/-- `tf.reverse_sequence`: the first `n` places are reversed. -/
def reverseSeq {α : Type} (n : Nat) (x : List α) : List α := (x.take n).reverse ++ x.drop n

/-- utils.py:128-130 `bidirectional_dynamic_rnn` and the concatenation of both directions. -/
def bidirectional (fw bw : RnnCell) (n : Nat) (x : Rows) : Rows :=
  List.zipWith (· ++ ·) (dynamicRnn fw n 0 fw.init x) (reverseSeq n (dynamicRnn bw n 0 bw.init (reverseSeq n x)))

/-- `tf.math.add` of sequences. -/
def addRows (x y : Rows) : Rows := List.zipWith (List.zipWith (· + ·)) x y

/-- utils.py:125-137 `bilstm_layer`: the first layer replaces the input, the others are added.  The `tf.layers.dropout`
between them does nothing, because `training` is not passed. -/
def bilstm (n : Nat) : List (RnnCell × RnnCell) → Rows → Rows
  | [], x => x
  | c :: cs, x => cs.foldl (fun h c => addRows h (bidirectional c.1 c.2 n h)) (bidirectional c.1 c.2 n x)

/-! ### Aggregation of subwords -/

/-- utils.py:48-56 `subword_cnn` for one padded word. -/
def subwordCnn (emb : Int → List Rat) (ks : List ConvKernel) (ids : List Int) : List Rat :=
  maxPool (lastCount ks) (convStack ks (ids.map emb))

/-- utils.py:34-45 `subword_rnn` for one padded word: the sequence length is `None`, so the padding takes part. -/
def subwordRnn (emb : Int → List Rat) (cells : List (RnnCell × RnnCell)) (dense : List Rat → List Rat) (width : Nat)
    (ids : List Int) : List Rat :=
  maxPool width ((bilstm ids.length cells (ids.map emb)).map (fun v => (dense v).map relu))

/-- The sum of the vectors of a sequence, with `e` components. -/
def sumRows (e : Nat) (x : Rows) : List Rat := (List.range e).map (fun c => (x.map (fun v => v.getD c 0)).sum)

/-- utils.py:70-77 `subword_self_attention` for one padded word with vectors of size `e`; `scale` is the square root of
the size and `softmax` the function `tf.nn.softmax`. -/
def subwordAttention (e : Nat) (scale : Rat) (softmax : List Rat → List Rat) (emb : Int → List Rat) (ids : List Int) :
    List Rat :=
  sumRows e (List.zipWith (fun v p => v.map (· * p)) (ids.map emb)
    (softmax ((ids.map emb).map (fun v =>
      dotWith (fun c => scale * (sumRows e (ids.map emb)).getD c 0) v))))

/-- utils.py:150-153 `highway` for one vector; `gate` is the dense layer with its sigmoid. -/
def highway (gate : List Rat → List Rat) (x y : List Rat) : List Rat :=
  List.zipWith (· + ·) (List.zipWith (· * ·) (gate x) y) (List.zipWith (fun g a => (1 - g) * a) (gate x) x)

/-- The vectors of the words of a batch by an aggregation of subwords, utils.py:109. -/
def subwordVectors (agg : List Int → List Rat) (words : List (List Int)) : List (List Rat) :=
  (padWords words).map agg

/-! ### Dropout -/

/-- shared_builders.py:125, 133, 162, 169, 200 `tf.nn.dropout(x, keep_prob)` of one number with a random number `u`
from [0, 1). -/
def dropNumber (keep u x : Rat) : Rat := x / keep * ((keep + u).floor : Int)

/-- `tf.nn.dropout(x, keep_prob)` of a sequence; `u` gives the random numbers. -/
def dropRows (keep : Rat) (u : Nat → Nat → Rat) (x : Rows) : Rows :=
  x.zipIdx.map (fun p => p.1.zipIdx.map (fun q => dropNumber keep (u p.2 q.2) q.1))

/-- network.py:135 `placeholder_with_default(1.0)`: the probability to keep, given what is fed for the labels
(nothing in model.py:33-41 `predict`; neural_tagger.py:145-146 in training). -/
def keepProb (gold : Dict Str Rat) : Rat := (gold.get? kDropout).getD 1

/-- neural_tagger.py:145-146: what is fed in training besides the labels. -/
def trainFeed (labels : Dict Str Rat) (lr dropout : Rat) : Dict Str Rat := (labels.set kLr lr).set kDropout dropout

/-! ### The shared part -/

/-- A feature of words: a vector per word (shared_builders.py:27-54, followed by an optional dense layer), or the
aggregation of the subwords (utils.py:98-116, followed by an optional highway layer). -/
inductive WordFeat where
  | word (emb : Int → List Rat) (dense : List Rat → List Rat)
  | sub (agg : List Int → List Rat) (post : List Rat → List Rat)

/-- The subwords are padded, words are not. -/
def WordFeat.isSub : WordFeat → Bool
  | .word _ _ => false
  | .sub _ _ => true

/-- The ids of a word: one list per feature, for features of whole words a list of one id. -/
abbrev WordIds := List (List Int)

/-- The vector of a feature; `m` is the length to which subwords are padded (builder.py:130-155).  A word that is only
padding has no ids, which are padded too. -/
def WordFeat.vec : WordFeat → Nat → List Int → List Rat
  | .word emb dense, _, ids => dense (emb (ids.headD PADDING))
  | .sub agg post, m, ids => post (agg (ids ++ List.replicate (m - ids.length) PADDING))

/-- The ids of a feature. -/
def idsOf (w : WordIds) (f : Nat) : List Int := w.getD f []

/-- The number of subwords of the longest word of a batch. -/
def longest (batch : List (List WordIds)) (f : Nat) : Nat :=
  maxLength (batch.flatten.map (fun w => (idsOf w f).length))

/-- shared_builders.py:94-98, 105 `word_features`: the concatenation of the vectors of a word. -/
def wordVector (fs : List WordFeat) (m : Nat → Nat) (w : WordIds) : List Rat :=
  (fs.zipIdx.map (fun p => p.1.vec (m p.2) (idsOf w p.2))).flatten

/-- builder.py:130-155: sentences are padded to the longest one; the padding has no ids. -/
def padSentence (batch : List (List WordIds)) (s : List WordIds) : List WordIds :=
  s ++ List.replicate (maxLength (batch.map List.length) - s.length) []

/-- `word_features` for a sentence of a batch. -/
def wordFeatures (fs : List WordFeat) (batch : List (List WordIds)) (s : List WordIds) : Rows :=
  (padSentence batch s).map (wordVector fs (longest batch))

/-- The values under the names of `result` in shared_builders.py: what a task can be connected to. -/
inductive SharedOut where
  /-- shared_builders.py:105 `word_features`. -/
  | wordFeatures
  /-- shared_builders.py:125-128 `bilstm`. -/
  | bilstm (cells : List (RnnCell × RnnCell))
  /-- shared_builders.py:162-164 `dilated_cnn`. -/
  | dilated (ks : List ConvKernel)
  /-- shared_builders.py:133-147, 169-183: a skip connection that adds the word features. -/
  | skipSum (inner : SharedOut)
  /-- The same, concatenating. -/
  | skipConcat (inner : SharedOut)
  /-- shared_builders.py:195-203 `bilstm_cnn` with utils.py:140-147 `sent_level_cnn`. -/
  | sentCnn (inner : SharedOut) (ks : List ConvKernel)

/-- utils.py:140-147 `sent_level_cnn` for one word: the convolution runs over the components of its vector, each being
a place with one component (`tf.reshape(input_, [-1, 1, w_size, 1])`). -/
def sentLevelCnn (ks : List ConvKernel) (v : List Rat) : List Rat :=
  maxPool (lastCount ks) (convStack ks (v.map (fun x => [x])))

/-- The value for one (padded) sentence with `n` words and the word features `x`; `drop k` is what dropout does in the
layer with number `k` (counted from the outside). -/
def SharedOut.eval (drop : Nat → Rows → Rows) (n : Nat) (x : Rows) : Nat → SharedOut → Rows
  | _, .wordFeatures => x
  | k, .bilstm cells => Verif.bilstm n cells (drop k x)
  | k, .dilated ks => convStack ks (drop k x)
  | k, .skipSum inner => addRows (inner.eval drop n x (k + 1)) (drop k x)
  | k, .skipConcat inner => List.zipWith (· ++ ·) (inner.eval drop n x (k + 1)) (drop k x)
  | k, .sentCnn inner ks => (drop k (inner.eval drop n x (k + 1))).map (sentLevelCnn ks)

/-- The shared part on a batch of sentences: what the tasks get for the sentence `s` of the batch. -/
def sharedPartOf (fs : List WordFeat) (out : SharedOut) (drop : Nat → Rows → Rows) (batch : List (List WordIds))
    (s : List WordIds) : Rows :=
  out.eval drop s.length (wordFeatures fs batch s) 0

end Verif
