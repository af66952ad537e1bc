import Verif.Props.HyperDoc

/-!
# C132: vectors of a file are as long as they are there
-/

namespace Verif

variable {F μ σ : Type}

/-- C132: words get vectors of the length of the file.  If there is none in the file it is a `TypeError`, if the file was
not read a `KeyError`. -/
theorem C132_word_width (shapes : Dict Str Shape) (d : WordDoc) :
    (∀ rows (n : Nat), shapes.get? "word_embeddings".toList = some (.dims [rows, some n]) →
      d.net shapes = .ok (⟨n, d.denseSize⟩, d.trainable)) ∧
    (∀ rows, shapes.get? "word_embeddings".toList = some (.dims [rows, none]) → d.net shapes = .error .type) ∧
    (shapes.get? "word_embeddings".toList = none → d.net shapes = .error .key) := by
  refine ⟨?_, ?_, ?_⟩ <;> intros <;> rename_i h <;> unfold WordDoc.net shapeWidth Dict.getItem <;> rw [h] <;> rfl

/-- C132: pretrained subwords get vectors of the length of their file, whatever `embed_size` says; random ones of the length
`embed_size` says, whatever was read. -/
theorem C132_subword_width (shapes : Dict Str Shape) (name : Str) (d : SubwordDoc) :
    (∀ path t m size rows (n : Nat), d.vectors = .pretrained path t m size →
      shapes.get? name = some (.dims [rows, some n]) →
      (d.net shapes name).map (fun p => (p.1.size, p.2)) = .ok (n, t)) ∧
    (∀ path t m size rows, d.vectors = .pretrained path t m size → shapes.get? name = some (.dims [rows, none]) →
      d.net shapes name = .error .type) ∧
    (∀ path t m size, d.vectors = .pretrained path t m size → shapes.get? name = none →
      d.net shapes name = .error .key) ∧
    (∀ size m t, d.vectors = .random size m t →
      (d.net shapes name).map (fun p => (p.1.size, p.2)) = .ok (size, t)) := by
  refine ⟨?_, ?_, ?_, ?_⟩
  · intro path t m size rows n hv h
    unfold SubwordDoc.net shapeWidth Dict.getItem
    rw [hv]; dsimp only; rw [h]; rfl
  · intro path t m size rows hv h
    unfold SubwordDoc.net shapeWidth Dict.getItem
    rw [hv]; dsimp only; rw [h]; rfl
  · intro path t m size hv h
    unfold SubwordDoc.net shapeWidth Dict.getItem
    rw [hv]; dsimp only; rw [h]; rfl
  · intro size m t hv
    unfold SubwordDoc.net
    rw [hv]; rfl

/-- C132: training with a file of word vectors without a vector is a `TypeError`. -/
theorem C132_no_vectors (w : Outside) (m : Machine F μ σ) (dir : List Str)
    (dev : Option (Nat → List Str × μ → Res ScoreTable)) (d : HyperDoc) (h : d.Fine) (j : JV)
    (hj : SameHyper d.toJson j) (wd : WordDoc) (hw : d.shared.features.word = some wd)
    {ps asm shapes} (hp : d.providers w = .ok ps)
    (ha : assemble m.lower m.float m.zero m.tok (m.sparsify (d.shared.sparse.getD 0)) m.seen ps = .ok asm)
    (hs : asm.shapes = .ok shapes) {rows}
    (hn : shapes.get? "word_embeddings".toList = some (.dims [rows, none])) :
    hyperTrain w m dir dev j = .error .type := by
  rw [C132_documented_partial w m dir dev d h j hj]
  have hnet : d.net shapes = .error .type := by
    unfold HyperDoc.net FeaturesDoc.net
    rw [hw]
    unfold readOpt
    dsimp only
    rw [(C132_word_width shapes wd).2.1 rows hn]
    rfl
  unfold HyperDoc.train
  rw [hp]; simp only [okBindL]
  rw [ha]; simp only [okBindL]
  rw [hs]; simp only [okBindL]
  rw [hnet]; rfl

namespace Demo

/-- `docSample` with word vectors of a file. -/
def docWords : HyperDoc :=
  { docSample true with shared := { (docSample true).shared with
      features := { (docSample true).shared.features with word := some ⟨"v".toList, true, true, none⟩ } } }

/-- All files have these lines. -/
def oneFile (lines : List Str) : Outside := { noFiles with file := fun _ => .ok lines }

end Demo

/-- With a vector of length two training ends, without one it does not begin. -/
example :
    Demo.trainedModels (hyperTrain (Demo.oneFile ["w 1 2".toList]) Demo.hyperMachine [] none
      Demo.docWords.toJson) = .ok ([1, 2], [1/500, 1/500], none) ∧
    Demo.trainedModels (hyperTrain (Demo.oneFile []) Demo.hyperMachine [] none Demo.docWords.toJson) =
      .error .type := by
  refine ⟨by decide +kernel, by decide +kernel⟩

end Verif
