import Verif.Model.Network
import Verif.Model.Extractors
import Mathlib.Data.Rat.Defs
import Mathlib.Algebra.Order.Ring.Rat

/-!
# Model of what the layers around the learned parts compute

task_builders.py (choice of lemma rules, losses, cutting of words), utils.py (averaging of subwords),
initializers.py and model.py (initial values).  Numbers are exact rationals; what the learned layers
compute is given by arbitrary arguments (`logits`, `raw`, `emb`).
-/

namespace Verif

/-! ### Choosing a lemma rule -/

/-- task_builders.py:112 `np.finfo(np.float32).min`. -/
def floatMin : Rat := -340282346638528859811704183484516925440

/-- task_builders.py:107-112, 260-263 `tf.where(applicable_rules, logits, min)` for one word. -/
def maskLogits (applicable : List Bool) (logits : List Rat) : List Rat :=
  List.zipWith (fun a x => if a then x else floatMin) applicable logits

/-- task_builders.py:73-74, 269-270, 107-112: the index of the rule that is predicted for a word.
`argmax` is `tf.argmax`, which leaves open which one of several greatest elements is taken. -/
def predictRule (lower : Str → Str) (id2rule : List LemmaRule) (argmax : List Rat → Nat)
    (logits : List Rat) (text : Str) : Res Nat :=
  match applicableRules lower id2rule text with
  | .error e => .error e
  | .ok v => .ok (argmax (maskLogits v logits))

/-- The predicted rule is applied to the word (extractors.py:487-492). -/
def lemmatize (lower : Str → Str) (id2rule : List LemmaRule) (argmax : List Rat → Nat)
    (logits : List Rat) (t : TextToken) : Res Token :=
  match predictRule lower id2rule argmax logits t.1 with
  | .error e => .error e
  | .ok i => interpretRule lower id2rule t [(i : Int)]

/-! ### Losses -/

/-- The greatest element of a list of lengths. -/
def maxLength (l : List Nat) : Nat := l.foldr max 0

/-- shared_builders.py:101 `tf.sequence_mask`. -/
def sequenceMask (lengths : List Nat) : List (List Rat) :=
  lengths.map (fun n => (List.range (maxLength lengths)).map (fun j => if j < n then 1 else 0))

/-- shared_builders.py:102 `sentence_norm`. -/
def sentenceNorm (lengths : List Nat) : Rat := (lengths.map (fun n : Nat => (n : Rat))).sum

/-- `tf.reduce_sum(a * b)` of matrices. -/
def productSum (a b : List (List Rat)) : Rat :=
  (List.zipWith (fun x y => (List.zipWith (· * ·) x y).sum) a b).sum

/-- Division of floats: 0/0 and x/0 are no numbers. -/
def divide (a b : Rat) : Option Rat := if b = 0 then none else some (a / b)

/-- task_builders.py:69-71 `_loss`: `raw` holds the cross entropies of all words, also of those that
are only padding. -/
def denseLoss (lengths : List Nat) (raw : List (List Rat)) : Option Rat :=
  divide (productSum raw (sequenceMask lengths)) (sentenceNorm lengths)

/-- task_builders.py:59: the weight of a part of the label. -/
def lossWeight (weights : Dict Str Rat) (slot : Str) : Res Rat :=
  match weights.get? slot with
  | some w => .ok w
  | none => weights.getItem "default".toList

/-- task_builders.py:53-61 `_sum_losses`, with weights. -/
def sumWeighted (weights : Dict Str Rat) (losses : List (Str × Rat)) : Res Rat :=
  match mapM' (fun p : Str × Rat => match lossWeight weights p.1 with
      | .error e => .error e
      | .ok w => .ok (p.2 * w)) losses with
  | .error e => .error e
  | .ok l => .ok l.sum

/-- task_builders.py:191-196 `_loss` of the character task: `raw` has one entry per word and position up
to `max_word_length`.  The mask is broadcast over the positions. -/
def comboLoss (lengths : List Nat) (maxLen : Nat) (weight : Rat) (raw : List (List (List Rat))) :
    Option Rat :=
  (divide (productSum (raw.map (fun s => s.map List.sum)) (sequenceMask lengths))
    (sentenceNorm lengths * maxLen)).map (fun x => x * weight)

/-! ### Subwords -/

/-- builder.py:130-155: the words of a sentence (or of a batch), padded to the length of the longest
one. -/
def padWords (words : List (List Int)) : List (List Int) :=
  words.map (fun w => w ++ List.replicate (maxLength (words.map List.length) - w.length) PADDING)

/-- utils.py:59-67 `subword_average` for one padded word: the vectors of the padding are replaced by
zeros, and the mean is taken over all positions.  `emb` gives the vectors, of size `e`. -/
def subwordAverage (e : Nat) (emb : Int → Nat → Rat) (ids : List Int) : List Rat :=
  (List.range e).map (fun k =>
    (ids.map (fun i => if i ≠ PADDING then emb i k else 0)).sum / (ids.length : Rat))

/-- utils.py:59-67 for all words. -/
def averageVectors (e : Nat) (emb : Int → Nat → Rat) (words : List (List Int)) : List (List Rat) :=
  (padWords words).map (subwordAverage e emb)

/-- task_builders.py:201-213 `_get_char_embeddings` for one padded word: cut to `max_word_length` or
extended by zeros. -/
def comboInput (e : Nat) (emb : Int → Nat → Rat) (maxLen : Nat) (ids : List Int) : List (List Rat) :=
  if ids.length > maxLen then (ids.map (fun i => (List.range e).map (emb i))).take maxLen
  else ids.map (fun i => (List.range e).map (emb i)) ++
    List.replicate (maxLen - ids.length) (List.replicate e 0)

/-- task_builders.py:201-213 for all words. -/
def comboInputs (e : Nat) (emb : Int → Nat → Rat) (maxLen : Nat) (words : List (List Int)) :
    List (List (List Rat)) :=
  (padWords words).map (comboInput e emb maxLen)

/-! ### Initial values -/

/-- A variable of a session: a matrix. -/
structure Mat (F : Type) where
  width : Nat
  rows : List (List F)
  deriving DecidableEq

/-- `tf.scatter_update` for one row; an index that is `None` cannot be fed, nor a vector of another
size; an index outside of the matrix is an error. -/
def scatterRow {F : Type} (m : Mat F) (r : Option Int × List F) : Res (Mat F) :=
  match r.1 with
  | none => .error .type
  | some i =>
    if r.2.length = m.width ∧ 0 ≤ i ∧ i < m.rows.length then
      .ok { m with rows := m.rows.set i.toNat r.2 }
    else .error .value

/-- What an initializer does: set all variables to random values (`GlobalInitializer`), or set rows of a
matrix to the values passed under the name of the parameter (`MatrixInitializer`). -/
inductive InitOp where
  | global
  | matrix (param var : Str)
  deriving DecidableEq

/-- initializers.py:29-31, 59-62 `initialize`.  Unpacking the transposition of no rows raises
`ValueError`.  `random` are the values the initialisation of all variables chooses. -/
def InitOp.run {F : Type} (random : Dict Str (Mat F)) (values : Dict Str (List (Option Int × List F)))
    (vars : Dict Str (Mat F)) : InitOp → Res (Dict Str (Mat F))
  | .global => .ok random
  | .matrix p v =>
    match values.getItem p with
    | .error e => .error e
    | .ok [] => .error .value
    | .ok (r :: rows) =>
      match vars.getItem v with
      | .error e => .error e
      | .ok m =>
        match forM' scatterRow m (r :: rows) with
        | .error e => .error e
        | .ok m' => .ok (vars.set v m')

/-- model.py:17-19 `Model.initialize`. -/
def initializeAll {F : Type} (random : Dict Str (Mat F)) (values : Dict Str (List (Option Int × List F)))
    (ops : List InitOp) : Res (Dict Str (Mat F)) :=
  forM' (InitOp.run random values) Dict.empty ops

/-- shared_builders.py:29-33, utils.py:105-107, task_builders.py:202-204: the parameters and the
variables of the pretrained matrices of a network, and network.py:171-173: the order of the
initializers. -/
def NetCfg.initOps (c : NetCfg) : List InitOp :=
  .global :: (c.features.inits.map (fun n => .matrix n n) ++
    c.tasks.flatMap (fun t => t.inits.map (fun n => .matrix n (n ++ "_e".toList))))

/-- `tf.nn.embedding_lookup` for one index. -/
def Mat.lookup {F : Type} (m : Mat F) (i : Int) : Option (List F) :=
  if i < 0 then none else m.rows[i.toNat]?

end Verif
