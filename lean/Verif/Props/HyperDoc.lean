import Verif.Proofs.HyperDoc
import Verif.Props.HyperRequired

/-!
# C132: documented hyperparameters mean what is documented
-/

namespace Verif

variable {F μ σ : Type}

theorem pass_doc (d : HyperDoc) : passParams d.toJson = .ok () := by rfl

/-- C132: hyperparameters of the documented form, with any further entries and in any order, are trained as documented:
the features, the network and the loop are those that are written down, with the documented defaults. -/
theorem C132_documented_partial (w : Outside) (m : Machine F μ σ) (dir : List Str)
    (dev : Option (Nat → List Str × μ → Res ScoreTable)) (d : HyperDoc) (h : d.Fine) (j : JV)
    (hj : SameHyper d.toJson j) : hyperTrain w m dir dev j = d.train w m dir dev := by
  rw [← C130_known w m dir dev hj]
  have h1 : hyperInitialLr d.toJson = .ok d.initialLr := by rfl
  have h2 : hyperEpochs d.toJson = .ok (d.epochs : Int) := jnat_int d.epochs
  unfold hyperTrain hyperPrepare HyperDoc.train
  rw [pass_doc, construct_doc d h, providers_doc d w h, h1, h2, keys_doc]
  simp only [okBindL, net_doc d _ h, loop_doc]
  cases d.providers w with
  | error e => rfl
  | ok ps =>
    simp only [okBindL]
    cases assemble m.lower m.float m.zero m.tok (m.sparsify (d.shared.sparse.getD 0)) m.seen ps with
    | error e => rfl
    | ok asm =>
      simp only [okBindL]
      cases asm.shapes with
      | error e => rfl
      | ok shapes =>
        simp only [okBindL]
        cases d.net shapes with
        | error e => rfl
        | ok net =>
          simp only [okBindL]
          cases buildNetwork m.graph net.cfg with
          | error e => rfl
          | ok b =>
            simp only [okBindL]

/-! ### Examples -/

namespace Demo

/-- The documentation of `hyperSample`, with random vectors of characters that are to be trained or not. -/
def docSample (t : Bool) : HyperDoc where
  epochs := 2
  dropout := 1/2
  batchSize := 8
  optimizer := .adam
  initialLr := 1/500
  decay := 0
  factor := 2
  shared := ⟨.bilstm 20 none (some .concat), none,
    ⟨none, some ⟨5, 1, true, true⟩, some ⟨.char, .random 5 1 t, .cnn [⟨3, 5, 1⟩], none⟩, none, none⟩⟩
  tasks := [("pos".toList, .pos ⟨"bilstm_and_word_features".toList, 30, [("default".toList, 1/5)]⟩ .uxf),
    ("lemma".toList, .lemmaDense ⟨"bilstm_and_word_features".toList, 30, [("LEMMA".toList, 1)]⟩)]

theorem docSample_fine : (docSample true).Fine where
  names := by decide
  other := by decide
  weight := by
    intro t ht x ks s e m h s' m' n he
    simp only [docSample, List.mem_cons, List.not_mem_nil, or_false] at ht
    rcases ht with rfl | rfl <;> cases he
  chars := by
    intro c hc n m hv
    simp only [docSample, Option.some.injEq] at hc
    subst hc
    cases hv
  bpe := by intro c hc; cases hc
  morfessor := by intro c hc; cases hc

/-- A network whose vectors of characters are trained learns something else than one where they are fixed. -/
def fussyMachine : Machine Int Nat Nat :=
  { hyperMachine with
    learn := fun net _ => .ok (if ("characters".toList, true) ∈ net.trained then 100 else 0,
      fun _ m _ _ => .ok (m + 1, 0)) }

end Demo

example : Demo.trainedModels ((Demo.docSample true).train Demo.noFiles Demo.hyperMachine [] none) =
    .ok ([1, 2], [1/500, 1/500], none) := by decide +kernel

/-- The order of the entries and further entries do not matter. -/
example : SameHyper (Demo.docSample true).toJson ((Demo.docSample true).toJson.setAt
    ["nn_config".toList, "general".toList] "comment".toList (.str "x".toList)) := by
  refine setAt_same _ _ _ _ _ ?_
  rintro ⟨_, _, h⟩
  have h' : "comment".toList ∈ ["optimizer".toList] := h
  exact absurd h' (by decide)

/-- C132 (refuted): `trainable: false` is documented to keep the vectors, but random vectors of subwords are trained
nevertheless: the models are those of `trainable: true`. -/
theorem C132_trainable_refuted :
    Demo.trainedModels (hyperTrain Demo.noFiles Demo.fussyMachine [] none (Demo.docSample false).toJson) =
      .ok ([101, 102], [1/500, 1/500], none) ∧
    Demo.trainedModels (hyperTrain Demo.noFiles Demo.fussyMachine [] none (Demo.docSample true).toJson) =
      .ok ([101, 102], [1/500, 1/500], none) ∧
    Demo.trainedModels ((Demo.docSample false).train Demo.noFiles Demo.fussyMachine [] none) =
      .ok ([1, 2], [1/500, 1/500], none) := by
  refine ⟨by decide +kernel, by decide +kernel, by decide +kernel⟩

/-- C132: a threshold need not be a whole number.  A word, character or subword is kept if it occurs at least
`min_frequency` times, a rule if it occurs more than `rules_threshold` times; both are compared with the number itself. -/
theorem C132_thresholds (w : Outside) (c fc : JV) (q : Rat) :
    (c.find ["min_frequency".toList] = some (.num q) → ∀ p, trainedProvider c = .ok p →
      ∃ name th lc, p = .trainable name th lc ∧ ∀ count : Nat, th ≤ count ↔ q ≤ count) ∧
    (c.find ["min_frequency".toList] = some (.num q) → c.find ["embedding_path".toList] = none →
      ∀ n p, subwordProvider w n c = .ok p →
      ∃ th seg, p = .subwords n th seg ∧ ∀ count : Nat, th ≤ count ↔ q ≤ count) ∧
    (c.find ["min_frequency".toList] = some (.num q) → ∀ p, lemmaCharsProvider w c = .ok p →
      ∃ name th size seg, p = .lemmaChars name th size seg ∧ ∀ count : Nat, th ≤ count ↔ q ≤ count) ∧
    (fc.find ["lemma_suffix_transformation".toList, "rules_threshold".toList] = some (.num q) →
      ∀ l, rulesProvider fc = .ok l →
      ∃ a b th, l = [.lemmaRules a b th] ∧ ∀ count : Nat, th < count ↔ q < count) := by
  have least : ∀ (th : Int), (JV.num q).atLeast = .ok th → ∀ count : Nat, th ≤ count ↔ q ≤ count := by
    intro th h count
    simp only [JV.atLeast, JV.number, Except.ok.injEq] at h
    rw [← h, Rat.ceil_le_iff]
    norm_cast
  refine ⟨?_, ?_, ?_, ?_⟩
  · intro hq p h
    simp only [trainedProvider, okBind, okPure, JV.find_one.mp hq, Except.ok.injEq, exists_eq_left'] at h
    obtain ⟨th, hth, lc, _, rfl⟩ := h
    exact ⟨_, th, _, rfl, least th hth⟩
  · intro hq he n p h
    simp only [subwordProvider, okBind] at h
    obtain ⟨b, hb, h⟩ := h
    cases b with
    | true =>
      simp only [if_true, okBind] at h
      obtain ⟨v, hv, _⟩ := h
      rw [JV.find_one.mpr hv] at he
      cases he
    | false =>
      simp only [Bool.false_eq_true, if_false, okBind, okPure, JV.find_one.mp hq, Except.ok.injEq, exists_eq_left'] at h
      obtain ⟨th, hth, seg, _, rfl⟩ := h
      exact ⟨th, seg, rfl, least th hth⟩
  · intro hq p h
    simp only [lemmaCharsProvider, okBind, okPure, JV.find_one.mp hq, Except.ok.injEq, exists_eq_left'] at h
    obtain ⟨th, hth, _, _, _, _, seg, _, rfl⟩ := h
    exact ⟨_, th, _, seg, rfl, least th hth⟩
  · intro hq l h
    simp only [rulesProvider, okBind, okPure] at h
    obtain ⟨rc, hrc, v, hv, th, hth, rfl⟩ := h
    obtain ⟨o, rfl, ho⟩ := JV.get_ok.mp hrc
    simp only [JV.find, ho, Option.bind_some] at hq
    rw [JV.find_one.mp hq] at hv
    cases hv
    refine ⟨_, _, th, rfl, fun count => ?_⟩
    simp only [JV.above, JV.number, Except.ok.injEq] at hth
    rw [← hth, Rat.floor_lt_iff]
    norm_cast

/-- With 5/2 a word that occurs three times is kept and one that occurs twice is not. -/
example : ∃ p, trainedProvider (.obj [("min_frequency".toList, .num (5/2)), ("lowercase".toList, .bool true)]) = .ok p ∧
    p = .trainable "trained_words".toList 3 true := ⟨_, rfl, congrArg (Provider.trainable _ · _) (by decide +kernel)⟩

end Verif
