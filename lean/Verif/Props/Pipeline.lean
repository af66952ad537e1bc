import Verif.Proofs.Pipeline3
import Verif.Props.Extractors
import Verif.Props.Datamodel2
import Verif.Props.PosLabels

/-!
# Taggers, parsers and processors: C59–C62, C85–C88
-/

namespace Verif

/-! ### C59 -/

/-- C59: from in-range predictions, one document is made per document, in order, with the same text
and sentences, the same tokens apart from tag and lemma, and every word gets the tag and lemma that
were predicted for it. -/
theorem C59_tagged (lower : Str → Str) (is : List WordInterp)
    (predict : Document → Sentence → Res (Dict Str (List Feat)))
    (labels : Document → Sentence → Dict Str (List (List Int))) (docs : List Document)
    (hb : ∀ d ∈ docs, Built d)
    (hp : ∀ d ∈ docs, ∀ s ∈ d.sentences, ∃ pred, predict d s = .ok pred ∧
      PredictionFor (s.stop - s.start) (labels d s) pred)
    (hi : ∀ d ∈ docs, ∀ s ∈ d.sentences, ∀ i ∈ is, i.Trained ∧
      ∃ rows, (labels d s).get? i.name = some rows ∧ ∀ ids ∈ rows, i.InRange ids) :
    ∃ outs, neuralTagAll lower is predict docs = .ok outs ∧
      List.Forall₂ (fun d d' => Retagged d d' ∧
        ∀ s ∈ d.sentences, ∀ (j : Nat) t u, s.start ≤ j → j < s.stop → d.tokens[j]? = some t →
          d'.tokens[j]? = some u →
          InterpretedAs lower is (labels d s) (j - s.start) (tokText d.text t, t) u) docs outs := by
  have h1 : ∀ d ∈ docs, ∃ d', neuralTag lower is predict d = .ok d' ∧ Retagged d d' ∧
      ∀ s ∈ d.sentences, ∀ (j : Nat) t u, s.start ≤ j → j < s.stop → d.tokens[j]? = some t →
        d'.tokens[j]? = some u →
        InterpretedAs lower is (labels d s) (j - s.start) (tokText d.text t, t) u :=
    fun d hd => neuralTag_total (hb d hd).docOk (hp d hd) (hi d hd)
  obtain ⟨outs, ho⟩ : ∃ outs, neuralTagAll lower is predict docs = .ok outs := by
    apply mapM'_total
    intro d hd
    obtain ⟨d', h2, _⟩ := h1 d hd
    exact ⟨d', h2⟩
  refine ⟨outs, ho, ?_⟩
  have hf := mapM'_ok_iff.mp ho
  rw [List.forall₂_iff_get] at hf ⊢
  refine ⟨hf.1, fun i h2 h3 => ?_⟩
  obtain ⟨d', h4, h5⟩ := h1 _ (List.get_mem docs ⟨i, h2⟩)
  have h6 := hf.2 i h2 h3
  rw [h4] at h6
  injection h6 with h6
  rw [← h6]
  exact h5

/-- C59, whatever is predicted: if tagging raises nothing, the document keeps its text, sentences,
tokens, heads and everything else but tags and lemmas; or all its tokens are lost. -/
theorem C59_any_prediction (lower : Str → Str) (is : List WordInterp)
    (predict : Document → Sentence → Res (Dict Str (List Feat))) (docs outs : List Document)
    (hb : ∀ d ∈ docs, Built d) (h : neuralTagAll lower is predict docs = .ok outs) :
    List.Forall₂ (fun d d' => Retagged d d' ∨
      (d'.text = d.text ∧ d'.tokens = [] ∧ d'.sentences = [])) docs outs := by
  have hf := mapM'_ok_iff.mp h
  rw [List.forall₂_iff_get] at hf ⊢
  exact ⟨hf.1, fun i h2 h3 => neuralTag_structure (hb _ (List.get_mem docs ⟨i, h2⟩)).docOk
    (hf.2 i h2 h3)⟩

/-- C59: the second case of `C59_any_prediction` happens: a network without outputs silently
empties every document. -/
theorem C59_no_outputs (lower : Str → Str) (is : List WordInterp) (d : Document) :
    neuralTag lower is (fun _ _ => .ok Dict.empty) d = .ok ⟨d.text, [], []⟩ := by
  have h : tagSentences lower is (fun _ _ => .ok Dict.empty) d =
      .ok (d.sentences.map (fun _ => [])) := by
    apply mapM'_pure
    intro s _
    simp [predictAndTag, tagSentence, iterInterpret, converted, zipAll, Dict.empty, mapM']
  have h2 : (d.sentences.map (fun _ => ([] : List TextToken))).flatten = [] := by
    rw [List.flatten_eq_nil_iff]
    intro l hl
    obtain ⟨_, _, rfl⟩ := List.mem_map.mp hl
    rfl
  simp only [neuralTag, h, h2, List.map_nil]
  exact C10_empty_list_drops_everything d


namespace Demo

def tagV : Pos := { upos := some ['V'], xpos := none, feats := Dict.empty }

/-- A tag table with two tags. -/
def tagTable : PosTable :=
  { splitter := .joint, id2parts := [[.pos none, .pos (some tagV)]], parts2id := [] }

def interps : List WordInterp :=
  [.pos ['p'] tagTable, .lemmaDict ['l'] [some "x".toList, none]]

/-- The same classes for every word. -/
def sameLabels (n : Nat) : Dict Str (List (List Int)) :=
  Dict.ofList [(['p'], List.replicate n [1]), (['l'], List.replicate n [0])]

def samePrediction (n : Nat) : Dict Str (List Feat) :=
  Dict.ofList [(['p'], [.list (List.replicate n (intArray [1]))]),
    (['l'], [.list (List.replicate n (intArray [0]))])]

end Demo

example : (neuralTag id Demo.interps (fun _ s => .ok (Demo.samePrediction (s.stop - s.start))) Demo.doc).map
      (fun d => d.tokens.map (fun t => (t.pos.bind (fun p => p.upos), t.lemma', t.headSent))) =
    .ok [(some ['V'], some ['x'], some 1), (some ['V'], some ['x'], some (-1)),
      (some ['V'], some ['x'], some 1), (some ['V'], some ['x'], some (-1))] := by decide +kernel

example (n : Nat) : PredictionFor n (Demo.sameLabels n) (Demo.samePrediction n) := by
  refine ⟨rfl, ?_, ?_⟩
  · intro h
    cases h
  intro k rows h
  by_cases h1 : k = ['p']
  · subst h1
    have : (Demo.sameLabels n).get? ['p'] = some (List.replicate n [1]) := rfl
    rw [this] at h
    injection h with h
    subst h
    refine ⟨by simp, ?_⟩
    simp only [List.map_replicate]
    rfl
  · by_cases h2 : k = ['l']
    · subst h2
      have : (Demo.sameLabels n).get? ['l'] = some (List.replicate n [0]) := rfl
      rw [this] at h
      injection h with h
      subst h
      refine ⟨by simp, ?_⟩
      simp only [List.map_replicate]
      rfl
    · exfalso
      have : k ∈ (Demo.sameLabels n).keys := by
        rw [← Dict.get?_isSome, h]
        rfl
      have h3 : (Demo.sameLabels n).keys = [['p'], ['l']] := rfl
      rw [h3] at this
      simp [h1, h2] at this

/-! ### C60 -/

/-- C60: on every document, whatever heads it had, the stub parser succeeds; it keeps text, sentences
and everything but heads and relations; every word gets the relation; the head of the first word of a
sentence is the root and the head of every other word is its left neighbour, in both views; so every
sentence is a tree and the document passes validation. -/
theorem C60_valid (deprel : Option Str) (docs : List Document) (hb : ∀ d ∈ docs, Built d) :
    ∃ outs, stubParseAll deprel docs = .ok outs ∧
      List.Forall₂ (fun d d' => d'.text = d.text ∧ d'.sentences = d.sentences ∧
        List.Forall₂ SameButSyntax d.tokens d'.tokens ∧ (∀ t ∈ d'.tokens, t.deprel = deprel) ∧
        (∀ s ∈ d.sentences, ∀ (j : Nat) t, s.start ≤ j → j < s.stop → d'.tokens[j]? = some t →
          t.headSent = some ((j : Int) - s.start - 1) ∧
          t.headDoc = some (if j = s.start then -1 else (j : Int) - 1)) ∧
        (∀ s ∈ d'.sentences, IsTree (d'.sentenceTokens s)) ∧
        Document.new d'.text d'.tokens (some d'.sentences) true = .ok d') docs outs := by
  have key : ∀ d ∈ docs, ∃ d', stubParse deprel d = .ok d' ∧
      (d'.text = d.text ∧ d'.sentences = d.sentences ∧
        List.Forall₂ SameButSyntax d.tokens d'.tokens ∧ (∀ t ∈ d'.tokens, t.deprel = deprel) ∧
        (∀ s ∈ d.sentences, ∀ (j : Nat) t, s.start ≤ j → j < s.stop → d'.tokens[j]? = some t →
          t.headSent = some ((j : Int) - s.start - 1) ∧
          t.headDoc = some (if j = s.start then -1 else (j : Int) - 1)) ∧
        (∀ s ∈ d'.sentences, IsTree (d'.sentenceTokens s)) ∧
        Document.new d'.text d'.tokens (some d'.sentences) true = .ok d') := by
    intro d hd
    have hok := (hb d hd).docOk
    obtain ⟨ts, h1, h2, h3⟩ := stubParse_spec hok deprel
    have hget : ∀ (j : Nat) t, ts[j]? = some t → ∃ s ∈ d.sentences, s.start ≤ j ∧ j < s.stop ∧
        ∃ t0, d.tokens[j]? = some t0 ∧ t = attached deprel s.start (j - s.start) t0 := by
      intro j t ht
      have hj : j < d.tokens.length := h2 ▸ (List.getElem?_eq_some_iff.mp ht).1
      obtain ⟨s, hs, h4, h5⟩ := hok.tiles.cover (Nat.zero_le j) hj
      have := h3 s hs j h4 h5 _ (List.getElem?_eq_getElem hj)
      rw [ht] at this
      injection this with this
      exact ⟨s, hs, h4, h5, _, List.getElem?_eq_getElem hj, this⟩
    have hheads : ∀ s ∈ d.sentences, ∀ (j : Nat) t, s.start ≤ j → j < s.stop → ts[j]? = some t →
          t.headSent = some ((j : Int) - s.start - 1) ∧
          t.headDoc = some (if j = s.start then -1 else (j : Int) - 1) := by
      intro s hs j t h4 h5 h6
      have hj : j < d.tokens.length := h2 ▸ (List.getElem?_eq_some_iff.mp h6).1
      have := h3 s hs j h4 h5 _ (List.getElem?_eq_getElem hj)
      rw [h6] at this
      injection this with this
      subst this
      unfold attached
      by_cases h7 : j = s.start
      · subst h7; simp
      · have h8 : j - s.start ≠ 0 := by omega
        simp only [h7, h8, if_false, Option.some.injEq]
        omega
    have htree : ∀ s ∈ d.sentences, IsTree (slice ts s.start s.stop) := by
      intro s hs
      have hm := hok.tiles.mem hs
      apply chain_isTree
      · intro h4
        have h5 := congrArg List.length h4
        rw [slice_length, h2] at h5
        simp only [List.length_nil] at h5
        have := s.lt
        omega
      · intro i t hi
        rw [slice_getElem?] at hi
        split at hi
        · rename_i h4
          obtain ⟨h5, h6⟩ := hheads s hs _ t (by omega) (by omega) hi
          have h7 : ((s.start + i : Nat) : Int) - s.start - 1 = if i = 0 then -1 else ((i - 1 : Nat) : Int) := by
            split <;> omega
          rw [h7] at h5
          refine ⟨h5, ?_⟩
          rw [Token.isRoot, h5, h6]
          by_cases h8 : i = 0
          · simp [h8]
          · have h9 : ¬ ((s.start + i : Nat) : Int) - 1 = -1 := by omega
            have h10 : ¬ ((i - 1 : Nat) : Int) = -1 := by omega
            have h11 : ¬ s.start + i = s.start := by omega
            simp [h8, h9, h10, h11]
            omega
        · cases hi
    refine ⟨_, h1, rfl, rfl, ?_, ?_, hheads, ?_, ?_⟩
    · rw [List.forall₂_iff_get]
      refine ⟨h2.symm, fun j hj hj' => ?_⟩
      obtain ⟨s, _, _, _, t0, h4, h5⟩ := hget j _ (List.getElem?_eq_getElem hj')
      rw [List.getElem?_eq_getElem hj] at h4
      injection h4 with h4
      simp only [List.get_eq_getElem]
      rw [h5, h4]
      exact ⟨rfl, rfl, rfl, rfl, rfl, rfl, rfl⟩
    · intro t ht
      obtain ⟨j, hj⟩ := List.mem_iff_getElem?.mp ht
      obtain ⟨s, _, _, _, t0, _, h5⟩ := hget j _ hj
      rw [h5]
      rfl
    · exact htree
    · have hok' : DocOk ⟨d.text, ts, d.sentences⟩ := by
        have : Built ⟨d.text, ts, d.sentences⟩ := by
          unfold stubParse at h1
          split at h1
          · cases h1
          · exact fromDocument_built h1
        exact this.docOk
      refine revalidates hok' ?_ (fun s hs => Or.inr (htree s hs))
      intro t ht hr
      obtain ⟨j, hj⟩ := List.mem_iff_getElem?.mp ht
      obtain ⟨s, hs, h4, h5, _⟩ := hget j _ hj
      obtain ⟨h6, h7⟩ := hheads s hs j t h4 h5 hj
      rw [Token.isRoot, h6, h7] at hr
      by_cases h8 : j = s.start
      · subst h8
        rw [h6, h7]
        simp
      · exfalso
        simp only [h8, if_false, Bool.or_eq_true, beq_iff_eq, Option.some.injEq] at hr
        omega
  obtain ⟨outs, ho⟩ : ∃ outs, stubParseAll deprel docs = .ok outs := by
    apply mapM'_total
    intro d hd
    obtain ⟨d', h2, _⟩ := key d hd
    exact ⟨d', h2⟩
  refine ⟨outs, ho, ?_⟩
  have hf := mapM'_ok_iff.mp ho
  rw [List.forall₂_iff_get] at hf ⊢
  refine ⟨hf.1, fun i h2 h3 => ?_⟩
  obtain ⟨d', h4, h5⟩ := key _ (List.get_mem docs ⟨i, h2⟩)
  have h6 := hf.2 i h2 h3
  rw [h4] at h6
  injection h6 with h6
  rw [← h6]
  exact h5

example : (stubParse (some "dep".toList) Demo.doc).map (fun d => d.tokens.map (fun t => (t.headSent, t.headDoc))) =
    .ok [(some (-1), some (-1)), (some 0, some 0), (some (-1), some (-1)), (some 0, some 2)] := by
  decide +kernel

/-! ### C61 -/

/-- C61: the stub trainer returns one tagger; its tag is a tag of the training set that no other tag
outnumbers, and among the most frequent ones the one seen first.  Without training tokens it raises an
`IndexError`. -/
theorem C61_trainer (docs : List Document) :
    (posLabels docs = [] ∧ stubTrain docs = .error .index) ∨
    ∃ pos pre post, stubTrain docs = .ok [pos] ∧ posLabels docs = pre ++ pos :: post ∧
      (∀ q ∈ posLabels docs,
        occurrences Token.optPosEq q (posLabels docs) ≤ occurrences Token.optPosEq pos (posLabels docs)) ∧
      ∀ q ∈ pre,
        occurrences Token.optPosEq q (posLabels docs) < occurrences Token.optPosEq pos (posLabels docs) := by
  have he : (docs.flatMap (fun d => d.tokens)).map (fun t => t.pos) = posLabels docs := by
    simp [posLabels, datasetTokens, List.map_flatMap, Document.textTokens, Function.comp_def]
  unfold stubTrain mostFrequentPos
  rw [he]
  cases hm : firstMax (counter Token.optPosEq (posLabels docs)) with
  | none =>
    left
    rw [firstMax_none, counter_eq optPosEq_rel, List.map_eq_nil_iff] at hm
    refine ⟨?_, rfl⟩
    cases hx : posLabels docs with
    | nil => rfl
    | cons x xs =>
      obtain ⟨y, hy, _⟩ := firsts_covers optPosEq_rel (x := x) (xs := posLabels docs) (by rw [hx]; simp)
      rw [hm] at hy
      cases hy
  | some b =>
    right
    obtain ⟨pre, post, h1, h2, h3⟩ := firstMax_counter optPosEq_rel hm
    exact ⟨b.1, pre, post, rfl, h1, h3, h2⟩

/-- C61: the stub tagger succeeds on every document; it keeps everything but tags and lemmas; every
word gets the tag, and its own text as lemma. -/
theorem C61_tagger (pos : Option Pos) (docs : List Document) (hb : ∀ d ∈ docs, Built d) :
    ∃ outs, stubTagAll pos docs = .ok outs ∧
      List.Forall₂ (fun d d' => Retagged d d' ∧
        List.Forall₂ (fun a b : Token => b.pos = pos ∧ b.lemma' = some (tokText d.text a))
          d.tokens d'.tokens) docs outs := by
  obtain ⟨outs, ho⟩ : ∃ outs, stubTagAll pos docs = .ok outs := by
    apply mapM'_total
    intro d hd
    obtain ⟨d', h2, _⟩ := stubTag_spec (hb d hd).docOk pos
    exact ⟨d', h2⟩
  refine ⟨outs, ho, ?_⟩
  have hf := mapM'_ok_iff.mp ho
  rw [List.forall₂_iff_get] at hf ⊢
  refine ⟨hf.1, fun i h2 h3 => ?_⟩
  obtain ⟨d', h4, h5⟩ := stubTag_spec (hb _ (List.get_mem docs ⟨i, h2⟩)).docOk pos
  have h6 := hf.2 i h2 h3
  rw [h4] at h6
  injection h6 with h6
  rw [← h6]
  exact h5

example : stubTrain [Demo.doc] = .ok [none] := by decide +kernel
example : (stubTag (some Demo.tagV) Demo.doc).map
      (fun d => d.tokens.map (fun t => (t.lemma', t.headDoc))) =
    .ok [(some ['a'], some 1), (some ['b'], some (-1)), (some "cd".toList, some 3),
      (some ['e'], some (-1))] := by decide +kernel

/-! ### C62, C87, C88 -/

/-- C62: a pipeline hands the documents from processor to processor, in order, and returns what the
last one returns; it raises nothing else than its processors do. -/
theorem C62_compose (ps : List Proc) (docs : List Document) :
    (∀ outs, processAll ps docs = .ok outs ↔ Flows ps docs outs) ∧
    (∀ e, processAll ps docs = .error e ↔
      ∃ pre p post mid, ps = pre ++ p :: post ∧ Flows pre docs mid ∧ p.process mid = .error e) := by
  unfold processAll
  induction ps generalizing docs with
  | nil =>
    refine ⟨fun outs => ?_, fun e => ?_⟩
    · simp only [forM', Except.ok.injEq]
      exact ⟨fun h => h ▸ .done docs, fun h => by cases h; rfl⟩
    · simp [forM']
  | cons p ps ih =>
    cases hp : p.process docs with
    | error e' =>
      simp only [forM', hp]
      refine ⟨fun outs => ?_, fun e => ?_⟩
      · refine ⟨fun h => (by cases h), fun h => ?_⟩
        cases h with
        | step h1 _ => rw [hp] at h1; cases h1
      · constructor
        · intro h
          injection h with h
          subst h
          exact ⟨[], p, ps, docs, rfl, .done docs, hp⟩
        · rintro ⟨pre, q, post, mid, h1, h2, h3⟩
          cases h2 with
          | done =>
            simp only [List.nil_append, List.cons.injEq] at h1
            rw [← h1.1, hp] at h3
            exact h3
          | step h4 _ =>
            simp only [List.cons_append, List.cons.injEq] at h1
            rw [← h1.1, hp] at h4
            cases h4
    | ok b =>
      simp only [forM', hp]
      obtain ⟨ih1, ih2⟩ := ih b
      refine ⟨fun outs => ?_, fun e => ?_⟩
      · rw [ih1]
        refine ⟨fun h => .step hp h, fun h => ?_⟩
        cases h with
        | step h1 h2 =>
          rw [hp] at h1
          injection h1 with h1
          rw [h1]
          exact h2
      · rw [ih2]
        constructor
        · rintro ⟨pre, q, post, mid, h1, h2, h3⟩
          exact ⟨p :: pre, q, post, mid, by rw [h1]; rfl, .step hp h2, h3⟩
        · rintro ⟨pre, q, post, mid, h1, h2, h3⟩
          cases h2 with
          | done =>
            simp only [List.nil_append, List.cons.injEq] at h1
            rw [← h1.1, hp] at h3
            cases h3
          | step h4 h5 =>
            simp only [List.cons_append, List.cons.injEq] at h1
            rw [← h1.1, hp] at h4
            injection h4 with h4
            rw [← h4] at h5
            exact ⟨_, q, post, mid, h1.2, h5, h3⟩

/-- C62: a pipeline of pipelines is the pipeline of all their processors. -/
theorem C62_nested (ps qs : List Proc) (docs outs : List Document) (i : Nat) :
    processAll (ps ++ qs) docs = .ok outs ↔
      processAll [{ id := i, process := processAll ps }, { id := i + 1, process := processAll qs }] docs =
        .ok outs := by
  unfold processAll
  rw [forM'_append]
  simp only [forM']
  cases forM' (fun r (p : Proc) => p.process r) docs ps with
  | error e => simp
  | ok b =>
    simp only
    cases forM' (fun r (p : Proc) => p.process r) b qs <;> simp

/-- C62: used in a `with` statement, a pipeline over a collection of processors enters each of them
once, in order, and afterwards exits each of them once, whether processing raises or not, and neither
hides nor changes the outcome. -/
theorem C62_with (it : ProcIter) (hr : it.oneShot = false) (hs : ∀ p ∈ it.items, p.Sound)
    (docs : List Document) :
    withProcessor it docs =
      (it.items.map (fun p => .entered p.id) ++ it.items.map (fun p => .exited p.id),
        processAll it.items docs) := by
  have h1 : it.after = it := by simp [ProcIter.after, hr]
  have h2 := enterAll_sound hs
  have h3 := exitAll_sound hs
  simp only [withProcessor, h1, h2, h3]

namespace Demo

/-- A processor that passes everything on. -/
def pass (i : Nat) : Proc := { id := i, process := fun ds => .ok ds }
/-- A processor that fails on every input. -/
def fails (i : Nat) : Proc := { id := i, process := fun _ => .error .value }
/-- A processor that drops the first document. -/
def drops (i : Nat) : Proc := { id := i, process := fun ds => .ok ds.tail }

end Demo

example : withProcessor ⟨[Demo.pass 0, Demo.fails 1], false⟩ [Demo.doc] =
    ([.entered 0, .entered 1, .exited 0, .exited 1], .error .value) := rfl
example : Flows [Demo.pass 0, Demo.drops 1] [Demo.doc, Demo.xdoc] [Demo.xdoc] :=
  .step rfl (.step rfl (.done _))

/-- C87 refuted: when the second processor cannot be entered, the first one, already entered, is never
exited. -/
theorem C87_refuted : ∃ (it : ProcIter) (docs : List Document) (i : Nat),
    .entered i ∈ (withProcessor it docs).1 ∧ .exited i ∉ (withProcessor it docs).1 ∧
    it.oneShot = false :=
  ⟨⟨[Demo.pass 0, { Demo.pass 1 with enterErr := some .runtime }], false⟩, [], 0, by decide, by decide, rfl⟩

/-- C87 refuted for failures of `__exit__` as well: the processors after the failing one are not
exited. -/
theorem C87_refuted_exit : ∃ (it : ProcIter) (docs : List Document) (i : Nat),
    (∀ p ∈ it.items, p.enterErr = none) ∧
    .entered i ∈ (withProcessor it docs).1 ∧ .exited i ∉ (withProcessor it docs).1 ∧
    (∃ p ∈ it.items, p.id = i ∧ p.exitErr = none) ∧ it.oneShot = false :=
  ⟨⟨[{ Demo.pass 0 with exitErr := some .runtime }, Demo.pass 1], false⟩, [], 1, by decide, by decide,
    by decide, ⟨Demo.pass 1, by simp, rfl, rfl⟩, rfl⟩

/-- C87, what holds: if every processor can be entered and exited, every processor that was entered
is exited, whatever processing raises.  Missing: the same when some `__enter__` or `__exit__` raises,
which is false (`C87_refuted`, `C87_refuted_exit`). -/
theorem C87_partial (it : ProcIter) (hr : it.oneShot = false) (hs : ∀ p ∈ it.items, p.Sound)
    (docs : List Document) (i : Nat) (h : .entered i ∈ (withProcessor it docs).1) :
    .exited i ∈ (withProcessor it docs).1 := by
  rw [C62_with it hr hs docs] at h ⊢
  simp only [List.mem_append, List.mem_map] at h ⊢
  rcases h with ⟨p, hp, h⟩ | ⟨p, hp, h⟩
  · injection h with h
    exact Or.inr ⟨p, hp, by rw [h]⟩
  · cases h

/-- C87: in case a processor cannot be entered, its predecessors are entered and nothing is exited;
the failure is reported. -/
theorem C87_failing_enter (it : ProcIter) (docs : List Document) (pre : List Proc) (p : Proc)
    (post : List Proc) (h : it.items = pre ++ p :: post) (hpre : ∀ q ∈ pre, q.enterErr = none) (e : Err)
    (he : p.enterErr = some e) :
    withProcessor it docs = (pre.map (fun q => .entered q.id), .error e) := by
  have : enterAll it.items = (pre.map (fun q => .entered q.id), some e) := by
    rw [h]
    clear h
    induction pre with
    | nil => simp [enterAll, he]
    | cons q pre ih =>
      have h1 := hpre q (by simp)
      have h2 := ih (fun x hx => hpre x (by simp [hx]))
      simp [enterAll, h1, h2]
  simp only [withProcessor, this]

/-- C88 refuted: over an iterator of processors, the pipeline enters the processors and then hands the
documents through unprocessed, and exits nothing. -/
theorem C88_refuted (ps : List Proc) (hs : ∀ p ∈ ps, p.Sound) (docs : List Document) :
    withProcessor ⟨ps, true⟩ docs = (ps.map (fun p => .entered p.id), .ok docs) := by
  have h2 := enterAll_sound hs
  simp only [withProcessor, h2, ProcIter.after, exitAll, processAll, forM', if_true, List.append_nil]

/-- C88, what holds: over a collection that can be iterated again every processor is applied.  Missing:
iterators, for which it is false (`C88_refuted`). -/
theorem C88_partial (it : ProcIter) (hr : it.oneShot = false) (hs : ∀ p ∈ it.items, p.Sound)
    (docs : List Document) : (withProcessor it docs).2 = processAll it.items docs := by
  rw [C62_with it hr hs docs]

example : withProcessor ⟨[Demo.drops 0], true⟩ [Demo.doc] = ([.entered 0], .ok [Demo.doc]) := rfl
example : (withProcessor ⟨[Demo.drops 0], false⟩ [Demo.doc]).2 = .ok [] := rfl

/-! ### C85 -/

/-- C85 refuted: the registered method `stub` cannot be evaluated: its trainer yields taggers without
scores, which fails whenever the training set has a token. -/
theorem C85_refuted :
    ∃ name m, name ∈ trainerNames ∧ getTrainer name = .ok m ∧ m = .stub ∧
      ∀ docs, posLabels docs ≠ [] → ∃ ys, stubYields docs = .ok ys ∧ ys ≠ [] ∧
        unpackAll ys = ([], some .type) := by
  refine ⟨"stub".toList, .stub, by decide, rfl, rfl, fun docs hd => ?_⟩
  rcases C61_trainer docs with ⟨h, _⟩ | ⟨pos, _, _, h, _⟩
  · exact absurd h hd
  · exact ⟨[.bare pos], by simp [stubYields, h], by simp, rfl⟩

/-- C85, what holds: exactly the three registered names are methods; the items of the neural and of
the pretrained trainer are pairs and all of them reach the evaluation.  Missing: the stub trainer
(`C85_refuted`). -/
theorem C85_partial (name : Str) :
    (name ∈ trainerNames ↔ ∃ m, getTrainer name = .ok m) ∧
    (name ∉ trainerNames → getTrainer name = .error .notImplemented) ∧
    ∀ (τ : Type) (items : List (ScoreTable × τ)),
      unpackAll (items.map (fun p => Yielded.pair p.1 p.2)) =
        (items.map (fun p => (some p.1, p.2)), none) := by
  refine ⟨?_, ?_, ?_⟩
  · unfold getTrainer trainerNames
    constructor
    · intro h
      simp only [List.mem_cons, List.not_mem_nil, or_false] at h
      rcases h with rfl | rfl | rfl
      · exact ⟨_, rfl⟩
      · exact ⟨_, rfl⟩
      · exact ⟨_, rfl⟩
    · rintro ⟨m, h⟩
      simp only [List.mem_cons, List.not_mem_nil, or_false]
      split at h
      · exact Or.inl ‹_›
      split at h
      · exact Or.inr (Or.inl ‹_›)
      split at h
      · exact Or.inr (Or.inr ‹_›)
      · cases h
  · unfold getTrainer trainerNames
    intro h
    simp only [List.mem_cons, List.not_mem_nil, or_false, not_or] at h
    rw [if_neg h.1, if_neg h.2.1, if_neg h.2.2]
  · intro τ items
    induction items with
    | nil => rfl
    | cons p l ih => simp [unpackAll, ih]

example : posLabels [Demo.doc] ≠ [] := by decide

/-! ### C86 -/

/-- C86: a network that predicts the labels of the gold annotation makes the tagger reproduce it: on
documents whose tags were seen in training and whose lemma rules are known, every word gets its gold
tag and its lowercased gold lemma. -/
theorem C86_perfect (lower : Str → Str) (np nr : Str) (split : Splitting)
    (tags : List (Option Pos)) (table : PosTable) (htab : buildPosTable split tags = .ok table)
    (hno : split = .gran → NoTagFeatures tags)
    (threshold : Int) (train : List Document) (rules : List LemmaRule)
    (hrules : buildRules lower threshold train = .ok rules)
    (docs : List Document) (hb : ∀ d ∈ docs, Built d)
    (htags : ∀ d ∈ docs, ∀ t ∈ d.tokens, t.pos ∈ tags)
    (hlem : ∀ d ∈ docs, ∀ t ∈ d.tokens, ∃ l, t.lemma' = some l ∧
      LemmaRule.getRule (lower (tokText d.text t)) (lower l) ∈ rules)
    (labels : Document → Sentence → Dict Str (List (List Int)))
    (predict : Document → Sentence → Res (Dict Str (List Feat)))
    (hp : ∀ d ∈ docs, ∀ s ∈ d.sentences, ∃ pred, predict d s = .ok pred ∧
      PredictionFor (s.stop - s.start) (labels d s) pred)
    (hgp : ∀ d ∈ docs, ∀ s ∈ d.sentences, ∃ rows, (labels d s).get? np = some rows ∧
      List.Forall₂ (fun t ids => table.encode t.pos = .ok ids) (d.sentenceTokens s) rows)
    (hgr : ∀ d ∈ docs, ∀ s ∈ d.sentences, ∃ rows, (labels d s).get? nr = some rows ∧
      List.Forall₂ (fun t ids => encodeRule lower rules (tokText d.text t, t) = .ok ids)
        (d.sentenceTokens s) rows) :
    ∃ outs, neuralTagAll lower [.pos np table, .lemmaRule nr rules] predict docs = .ok outs ∧
      List.Forall₂ (fun d d' => Retagged d d' ∧
        List.Forall₂ (fun t u : Token => Option.Rel SamePos u.pos t.pos ∧
          u.lemma' = t.lemma'.map lower) d.tokens d'.tokens) docs outs := by
  have hrange : ∀ d ∈ docs, ∀ s ∈ d.sentences,
      ∀ i ∈ [WordInterp.pos np table, .lemmaRule nr rules], i.Trained ∧
      ∃ rows, (labels d s).get? i.name = some rows ∧ ∀ ids ∈ rows, i.InRange ids := by
    intro d hd s hs i hi
    have hmem : ∀ t ∈ d.sentenceTokens s, t ∈ d.tokens := fun t ht => (slice_sublist d.tokens s.start s.stop).subset ht
    simp only [List.mem_cons, List.not_mem_nil, or_false] at hi
    rcases hi with rfl | rfl
    · refine ⟨⟨split, tags, htab⟩, ?_⟩
      obtain ⟨rows, h1, h2⟩ := hgp d hd s hs
      refine ⟨rows, h1, fun ids hids => ?_⟩
      obtain ⟨t, ht, h3⟩ := forall₂_mem_right h2 hids
      exact encode_in_range htab h3
    · refine ⟨trivial, ?_⟩
      obtain ⟨rows, h1, h2⟩ := hgr d hd s hs
      refine ⟨rows, h1, fun ids hids => ?_⟩
      obtain ⟨t, ht, h3⟩ := forall₂_mem_right h2 hids
      obtain ⟨l, h4, h5⟩ := hlem d hd t (hmem t ht)
      obtain ⟨i, h6, h7, _⟩ := C47_round_trip lower threshold train rules hrules (tokText d.text t, t) l h4 h5
      rw [h7] at h3
      injection h3 with h3
      subst h3
      exact ⟨i, [], rfl, by omega, by exact_mod_cast h6⟩
  obtain ⟨outs, h1, h2⟩ := C59_tagged lower _ predict labels docs hb hp hrange
  refine ⟨outs, h1, ?_⟩
  refine forall₂_imp_mem h2 ?_
  intro d d' hd ⟨h3, h4⟩
  refine ⟨h3, ?_⟩
  rw [forall₂_getElem?]
  refine ⟨h3.tokens.length_eq, ?_⟩
  intro j t u ht hu
  have hj := (List.getElem?_eq_some_iff.mp ht).1
  obtain ⟨s, hs, h5, h6⟩ := (hb d hd).docOk.tiles.cover (Nat.zero_le j) hj
  obtain ⟨h7, _, _⟩ := h4 s hs j t u h5 h6 ht hu
  have hsl : (d.sentenceTokens s)[j - s.start]? = some t := by
    show (slice d.tokens s.start s.stop)[j - s.start]? = some t
    rw [slice_getElem?, if_pos (by omega), show s.start + (j - s.start) = j by omega]
    exact ht
  have htm := List.mem_of_getElem? ht
  constructor
  · obtain ⟨rows, ids, w, h8, h9, h10, h11, _⟩ := h7 (.pos np table)
      ⟨[], [.lemmaRule nr rules], rfl, by simp [WordInterp.tagsPos]⟩
    obtain ⟨rows', h12, h13⟩ := hgp d hd s hs
    rw [show (WordInterp.pos np table).name = np from rfl, h12] at h8
    injection h8 with h8
    subst h8
    have h14 := (forall₂_getElem?.mp h13).2 _ _ _ hsl h9
    obtain ⟨ids', q, h15, h16, h17⟩ := C45_partial split tags table htab hno t.pos (htags d hd t htm)
    rw [h15] at h14
    injection h14 with h14
    subst h14
    simp only [WordInterp.apply, h17] at h10
    injection h10 with h10
    rw [h11 rfl, ← h10]
    exact h16
  · obtain ⟨rows, ids, w, h8, h9, h10, _, h11⟩ := h7 (.lemmaRule nr rules)
      ⟨[.pos np table], [], rfl, by simp⟩
    obtain ⟨rows', h12, h13⟩ := hgr d hd s hs
    rw [show (WordInterp.lemmaRule nr rules).name = nr from rfl, h12] at h8
    injection h8 with h8
    subst h8
    have h14 := (forall₂_getElem?.mp h13).2 _ _ _ hsl h9
    obtain ⟨l, hl, hrl⟩ := hlem d hd t htm
    obtain ⟨i, _, h15, h16⟩ := C47_round_trip lower threshold train rules hrules (tokText d.text t, t) l hl hrl
    rw [h15] at h14
    injection h14 with h14
    subst h14
    simp only [WordInterp.apply, h16] at h10
    injection h10 with h10
    rw [h11 rfl, ← h10, hl]
    rfl


namespace Demo

/-- Gold labels of the words of `xdoc`. -/
def goldLabels (table : PosTable) (rules : List LemmaRule) : Res (Dict Str (List (List Int))) :=
  match mapM' (fun t : Token => table.encode t.pos) xdoc.tokens with
  | .error e => .error e
  | .ok ps =>
    match mapM' (encodeRule id rules) xdoc.textTokens with
    | .error e => .error e
    | .ok rs => .ok (Dict.ofList [(['p'], ps), (['r'], rs)])

end Demo

example : ∃ table rules labels, buildPosTable .joint (posLabels [Demo.xdoc]) = .ok table ∧
    buildRules id 0 [Demo.xdoc] = .ok rules ∧ Demo.goldLabels table rules = .ok labels ∧
    Document.new Demo.xdoc.text Demo.xdoc.tokens (some Demo.xdoc.sentences) true = .ok Demo.xdoc ∧
    (∀ t ∈ Demo.xdoc.tokens, t.pos ∈ posLabels [Demo.xdoc] ∧ ∃ l ∈ t.lemma',
      LemmaRule.getRule (tokText Demo.xdoc.text t) l ∈ rules) ∧
    (neuralTag id [.pos ['p'] table, .lemmaRule ['r'] rules]
      (fun _ _ => .ok (Dict.ofList [(['p'], [.list (((labels.get? ['p']).getD []).map intArray)]),
        (['r'], [.list (((labels.get? ['r']).getD []).map intArray)])])) Demo.xdoc).map
      (fun d => d.tokens.map (fun t => t.lemma')) =
        .ok (Demo.xdoc.tokens.map (fun t => t.lemma')) := by
  refine ⟨_, _, _, rfl, rfl, rfl, ?_, ?_, ?_⟩
  · decide +kernel
  · decide +kernel
  · decide +kernel

end Verif
