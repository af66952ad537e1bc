import Verif.Proofs.Feeding
import Verif.Proofs.Names
import Verif.Props.Tagger
import Verif.Props.Training

/-! # C134: a network is trained on what it is asked later -/

namespace Verif

section
variable {F : Type} (lower : Str → Str) (float : Str → Res F) (zero : F) (other : TextToken) (sp : Sparsify)
  (seen : Seen) (ps : List Provider) (n : Nat) (docs : List Document) (steps : List (Features × Features))

/-- C134: an epoch has a step for every `n` sentences and one for the rest; every feature and label that the network is
given in a step has a row for each of its sentences and no others. -/
theorem C134_steps (hn : 0 < n) (h : trainingFeed lower float zero other sp seen ps n docs = .ok steps) :
    ∃ batches, Chunks n (docs.flatMap (fun d => d.sentences.map (fun s => (d, s)))) batches ∧
      List.Forall₂ (fun step batch => ∀ k v, step.1.get? k = some v ∨ step.2.get? k = some v →
        HasRows batch.length v) steps batches := by
  refine ⟨minibatches n (datasetSentences docs), C57_minibatches hn (datasetSentences docs), ?_⟩
  refine (feed_steps h).imp ?_
  rintro step batch ⟨os, hso⟩ k v hv
  rw [← hso.stand.length_eq]
  rcases hv with hv | hv
  · obtain ⟨r, hr, hf⟩ := hso.features
    obtain ⟨f, l, x, y, hmf, hl, hx, hy, rfl⟩ := assemble_ok.1 hr
    exact batch_rows (specYields_leaf Provider.featureSpec) hx hso.nonempty (feature_peopled hmf hso.items) hf hv
  · obtain ⟨r, hr, hf⟩ := hso.labels
    obtain ⟨f, l, x, y, hmf, hl, hx, hy, rfl⟩ := assemble_ok.1 hr
    exact batch_rows (specYields_leaf Provider.labelSpec) hy hso.nonempty
      (fun ws ty id hm => ⟨[.iter], label_peopled hl hso.items ws ty id hm⟩) hf hv

/-- C134: without `sparse_input_prob`, what the network is given in training for a sentence is what it is given when the
sentence is tagged, with padding after the words and their parts; a sentence that can be trained on can be tagged. -/
theorem C134_features (hn : 0 < n) (h : trainingFeed lower float zero other keepAll seen ps n docs = .ok steps)
    (b i : Nat) (d : Document) (s : Sentence) (hrow : TrainingRow n docs b i d s) (hd : Built d) :
    ∃ step f, steps[b]? = some step ∧ predictSentence lower float zero other seen ps .ok d s = .ok f ∧
      RowFeatures step.1 i f := by
  obtain ⟨step, os, batch, h1, h2, h3⟩ := feed_row hn h hrow
  obtain ⟨f, h4, h5⟩ := step_features h2 h3 hd
  exact ⟨step, f, h1, h4, h5⟩

/-- C134: the labels the network is trained on for a sentence are the labels of its words, in their order, and padding
after them; features are sparsified, labels are not. -/
theorem C134_labels (hn : 0 < n) (h : trainingFeed lower float zero other sp seen ps n docs = .ok steps)
    (b i : Nat) (d : Document) (s : Sentence) (hrow : TrainingRow n docs b i d s) (hd : Built d) :
    ∃ (step : Features × Features) (r : Assembled F) (D : Features), steps[b]? = some step ∧
      assemble lower float zero (docTok other d) keepAll seen ps = .ok r ∧ r.labels (sentenceBatch s) = .ok D ∧
      RowLabels step.2 i (s.stop - s.start) D := by
  obtain ⟨step, os, batch, h1, h2, h3⟩ := feed_row hn h hrow
  obtain ⟨r, D, h4, h5, h6⟩ := step_labels h2 h3 hd
  exact ⟨step, r, D, h1, h4, h5, h6⟩

theorem RowLabels.same {L P P' : Features} {i n : Nat} (h : RowLabels L i n P) (h' : RowLabels L i n P') :
    SameDict P P' := by
  intro k
  have a := h k
  have b := h' k
  cases hL : L.get? k with
  | none =>
    rw [hL] at a b
    cases hP : P.get? k with
    | some v => rw [hP] at a; cases a
    | none =>
      cases hP' : P'.get? k with
      | some v => rw [hP'] at b; cases b
      | none => rfl
  | some v =>
    rw [hL] at a b
    cases hP : P.get? k with
    | none => rw [hP] at a; cases a
    | some u =>
      cases hP' : P'.get? k with
      | none => rw [hP'] at b; cases b
      | some u' =>
        rw [hP] at a
        rw [hP'] at b
        cases a with
        | some a => cases b with
          | some b => rw [← a, ← b]

/-- A document without sentences is tagged without asking the network. -/
theorem tag_no_sentences {lower : Str → Str} {seen : Seen} {ps : List Provider} {i : Interp}
    (hi : assembleInterp lower seen ps = .ok i) (predict : Document → Sentence → Res Features) {d : Document}
    (hd : Built d) (h0 : d.sentences = []) : ∃ d', tagDocument lower i predict d = .ok d' ∧ Retagged d d' := by
  by_cases hne : labelSpecs ps = []
  · have hn0 : labelNames ps = [] := by
      rw [labelNames, ← List.map_filterMap]
      simpa [labelSpecs] using hne
    obtain ⟨d', h3, h4, _⟩ := C124_no_labels lower seen ps _ hi hn0 predict d hd
      (fun s hs => by rw [h0] at hs; cases hs)
    exact ⟨d', h3, h4⟩
  · obtain ⟨ws, rfl, ss, h1, h2⟩ := assembleInterp_ok hi
    have hws : ws ≠ [] := by
      rintro rfl
      cases h2
      exact hne (List.nil_perm.1 h1)
    rw [tagDocument_eq lower ws hws]
    obtain ⟨d', h3, h4, _⟩ := neuralTag_total (lower := lower) (is := ws) (predict := asPredicted predict) hd.docOk
      (labels := fun _ => Dict.empty) (fun s hs => by rw [h0] at hs; cases hs) (fun s hs => by rw [h0] at hs; cases hs)
    exact ⟨d', h3, h4⟩

/-- C134: a network that, when a training document is tagged, answers with the labels it was trained on for the words of
the sentences, reproduces the annotation of the document. -/
theorem C134_learned (dataset : List Document) (ho : seen.Orders ps dataset) (hn : 0 < n) (h : trainingFeed lower float zero other sp seen ps n docs = .ok steps)
    (net : Features → Res Features) (d : Document) (hd : Built d) (hdocs : d ∈ docs)
    (hdata : d ∈ dataset) (htrain : ∀ x ∈ d.tokens, ∀ p ∈ ps, TrainsOn dataset x p)
    (hnet : ∀ b i s step, TrainingRow n docs b i d s → steps[b]? = some step →
      ∃ P, predictSentence lower float zero other seen ps net d s = .ok P ∧
        RowLabels step.2 i (s.stop - s.start) P) :
    ∃ d', trainedTag lower float zero other seen ps net d = .ok d' ∧ Retagged d d' ∧
      ∀ (j : Nat) x u, d.tokens[j]? = some x → d'.tokens[j]? = some u →
        LabelledAs lower ps (tokText d.text x, x) x u := by
  -- every sentence is a row of a step
  have hrows : ∀ s ∈ d.sentences, ∃ b i, TrainingRow n docs b i d s := by
    intro s hs
    obtain ⟨j, hj, e⟩ := List.getElem_of_mem (show (d, s) ∈ docs.flatMap (fun d => d.sentences.map (fun s => (d, s))) from
      List.mem_flatMap.2 ⟨d, hdocs, List.mem_map.2 ⟨s, hs, rfl⟩⟩)
    refine ⟨j / n, j % n, Nat.mod_lt _ hn, ?_⟩
    rw [Nat.div_add_mod' j n, List.getElem?_eq_getElem hj, e]
  have hr : ∃ r : Assembled F, assemble lower float zero (docTok other d) keepAll seen ps = .ok r := by
    unfold trainingFeed at h
    cases hr : assemble lower float zero (datasetTok other docs) sp seen ps with
    | error e => rw [hr] at h; cases h
    | ok r =>
      rw [hr] at h
      cases hr' : assemble lower float zero (datasetTok other docs) keepAll seen ps with
      | error e => rw [hr'] at h; cases h
      | ok r' =>
        obtain ⟨r2, h3, _⟩ := assemble_same (tok' := docTok other d) (hs := []) (hs' := []) .nil hr'
        exact ⟨r2, h3⟩
  obtain ⟨r, hr⟩ := hr
  obtain ⟨i, hi⟩ := C124_builds lower float zero (docTok other d) keepAll seen ps r hr
  by_cases hempty : d.sentences = []
  · obtain ⟨d', h1, h2⟩ := tag_no_sentences hi (predictSentence lower float zero other seen ps net) hd hempty
    have htiles := hd.docOk.tiles
    rw [hempty] at htiles
    have htoks : d.tokens = [] := by
      have : d.tokens.length = 0 := by
        revert htiles
        generalize d.tokens.length = m
        intro htiles
        cases htiles
        rfl
      exact List.length_eq_zero_iff.1 this
    refine ⟨d', ?_, h2, fun j x u hx => ?_⟩
    · unfold trainedTag
      rw [hi]
      exact h1
    · rw [htoks] at hx
      cases hx
  have hnames : (labelNames ps).Nodup := by
    obtain ⟨s, rest, hcons⟩ := List.exists_cons_of_ne_nil hempty
    obtain ⟨b, i, hrow⟩ := hrows s (by rw [hcons]; simp)
    obtain ⟨step, r2, D, e1, e2, e3, e4⟩ := C134_labels lower float zero other sp seen ps n docs steps hn h b i d s
      hrow hd
    obtain ⟨f, l, x, y, _, hl, _, hy, rfl⟩ := assemble_ok.1 e2
    refine (assembled_names (mk := fun id p => p.label id) label_levels hl hy (n := 0) (D := D)
      (os := [.mk 0 ((List.range' s.start (s.stop - s.start)).map (fun k => .mk k []))]) (by simp) ?_ e3).1
    intro o ho
    have hlt := s.lt
    rw [List.mem_singleton] at ho
    subst ho
    simp only [Obj.items, ne_eq, List.map_eq_nil_iff, List.range'_eq_nil_iff]
    omega
  obtain ⟨d', h1, h2, h3⟩ := C124_oracle r hr i hi dataset ho hnames d d hd rfl
    (List.forall₂_same.2 fun _ _ => rfl)
    (by
      intro k x hk
      simp [docTok, List.getD_eq_getElem?_getD, textTokens_get, hk])
    (fun x hx p hp => C124_training dataset d hdata x hx p (htrain x hx p hp))
    (predictSentence lower float zero other seen ps net)
    (by
      intro s hs
      obtain ⟨b, i, hrow⟩ := hrows s hs
      obtain ⟨step, r2, D, e1, e2, e3, e4⟩ := C134_labels lower float zero other sp seen ps n docs steps hn h b i d s
        hrow hd
      obtain ⟨P, hP, hPr⟩ := hnet b i s step hrow e1
      refine ⟨P, hP, fun D' hD' => ?_⟩
      rw [hr] at e2
      injection e2 with e2
      subst e2
      rw [e3] at hD'
      injection hD' with hD'
      subst hD'
      exact hPr.same e4)
  refine ⟨d', ?_, h2, fun j x u hx hu => h3 j x x u hx hx hu⟩
  unfold trainedTag
  rw [hi]
  exact h1

/-- C134: a network that has learned its training data by heart (in every step it gives the words of every sentence their
labels) and does not mind padding (for one sentence it answers what it answers for its row in a step), reproduces the
annotation of the training data. -/
theorem C134_fit (dataset : List Document) (ho : seen.Orders ps dataset) (hn : 0 < n) (h : trainingFeed lower float zero other keepAll seen ps n docs = .ok steps)
    (net : Features → Res Features)
    (hfit : ∀ b i d s step, TrainingRow n docs b i d s → steps[b]? = some step → ∃ A, net step.1 = .ok A ∧
      ∀ P, RowLabels A i (s.stop - s.start) P → RowLabels step.2 i (s.stop - s.start) P)
    (hpad : ∀ b i d s step f A, TrainingRow n docs b i d s → steps[b]? = some step →
      predictSentence lower float zero other seen ps .ok d s = .ok f → RowFeatures step.1 i f → net step.1 = .ok A →
      ∃ P, net f = .ok P ∧ RowLabels A i (s.stop - s.start) P)
    (d : Document) (hd : Built d) (hdocs : d ∈ docs)
    (hdata : d ∈ dataset) (htrain : ∀ x ∈ d.tokens, ∀ p ∈ ps, TrainsOn dataset x p) :
    ∃ d', trainedTag lower float zero other seen ps net d = .ok d' ∧ Retagged d d' ∧
      ∀ (j : Nat) x u, d.tokens[j]? = some x → d'.tokens[j]? = some u →
        LabelledAs lower ps (tokText d.text x, x) x u := by
  refine C134_learned lower float zero other keepAll seen ps n docs steps dataset ho hn h net d hd hdocs hdata htrain ?_
  intro b i s step hrow hstep
  obtain ⟨step', f, h1, h2, h3⟩ := C134_features lower float zero other seen ps n docs steps hn h b i d s hrow hd
  rw [hstep] at h1
  injection h1 with h1
  subst h1
  obtain ⟨A, hA, hAP⟩ := hfit b i d s step hrow hstep
  obtain ⟨P, hP, hPr⟩ := hpad b i d s step f A hrow hstep h2 h3 hA
  refine ⟨P, ?_, hAP P hPr⟩
  unfold predictSentence at h2 ⊢
  cases hr : assemble lower float zero (docTok other d) keepAll seen ps with
  | error e => rw [hr] at h2; cases h2
  | ok r =>
    rw [hr] at h2
    simp only at h2 ⊢
    cases hf : r.features (sentenceBatch s) with
    | error e => rw [hf] at h2; cases h2
    | ok f' =>
      rw [hf] at h2
      injection h2 with h2
      subst h2
      exact hP

end

namespace Demo

/-- One of the words alone. -/
def shortDoc : Document :=
  { text := "a".toList, tokens := [{ start := 0, stop := 1, lemma' := some "x".toList }],
    sentences := [{ start := 0, stop := 1 }] }

theorem short_built : Built shortDoc := ⟨shortDoc.text, shortDoc.tokens, shortDoc.sentences, false, by decide +kernel⟩

def twoDocs : List Document := [goldDoc, shortDoc]

/-- The table of words is built from the documents in another order. -/
def twoSeen : Seen
  | .trainable _ _ _ => [shortDoc, goldDoc]
  | _ => twoDocs

theorem two_orders (ps : List Provider) : twoSeen.Orders ps twoDocs := by
  intro s _
  cases s <;> first | exact .refl _ | exact .swap _ _ _

/-- The only step of an epoch: the sentence of one word is padded. -/
def onlyStep : Features × Features :=
  (Dict.ofList [("w".toList, .list [.list [.int 2, .int 3], .list [.int 2, .int 0]])],
    Dict.ofList [("l".toList, .list [.list [.list [.int 0], .list [.int 1]], .list [.list [.int 0], .list [.int 0]]])])

theorem onlyStep_eq : trainingFeed id float 0 (ptok 0) Verif.keepAll twoSeen wordProviders 2 twoDocs =
    .ok [onlyStep] := rfl

theorem twoRows {b i : Nat} {d : Document} {s : Sentence} (h : TrainingRow 2 twoDocs b i d s) :
    b = 0 ∧ (i = 0 ∧ d = goldDoc ∧ s = ⟨0, 2, by decide⟩ ∨ i = 1 ∧ d = shortDoc ∧ s = ⟨0, 1, by decide⟩) := by
  obtain ⟨hi, h⟩ := h
  have hl : b * 2 + i < 2 := (List.getElem?_eq_some_iff.1 h).1
  obtain rfl : b = 0 := by omega
  refine ⟨rfl, ?_⟩
  obtain rfl | rfl : i = 0 ∨ i = 1 := by omega
  · left
    injection h with h
    injection h with h1 h2
    exact ⟨rfl, h1.symm, h2.symm⟩
  · right
    injection h with h
    injection h with h1 h2
    exact ⟨rfl, h1.symm, h2.symm⟩

theorem rowLabels_single {v v' : Feat} {i n : Nat} {k : Str} (h : rowWords i n v = some v') :
    RowLabels (Dict.ofList [(k, v)]) i n (Dict.ofList [(k, v')]) := by
  intro k'
  by_cases hk : k = k'
  · subst hk
    rw [show (Dict.ofList [(k, v)]).get? k = some v by simp [Dict.get?, Dict.ofList, Dict.updateList, Dict.set, Dict.empty, assocGet, assocSet],
      show (Dict.ofList [(k, v')]).get? k = some v' by simp [Dict.get?, Dict.ofList, Dict.updateList, Dict.set, Dict.empty, assocGet, assocSet]]
    exact .some h
  · rw [show (Dict.ofList [(k, v)]).get? k' = none by simp [Dict.get?, Dict.ofList, Dict.updateList, Dict.set, Dict.empty, assocGet, assocSet, hk],
      show (Dict.ofList [(k, v')]).get? k' = none by simp [Dict.get?, Dict.ofList, Dict.updateList, Dict.set, Dict.empty, assocGet, assocSet, hk]]
    exact .none

end Demo

/-- A network that has learned the two documents. -/
example : ∃ d', trainedTag id Demo.float 0 (Demo.ptok 0) Demo.twoSeen Demo.wordProviders Demo.echoNet Demo.shortDoc = .ok d' ∧
    d'.tokens.map Token.lemma' = [some "x".toList] := by
  obtain ⟨d', h1, h2, h3⟩ := C134_fit id Demo.float 0 (Demo.ptok 0) Demo.twoSeen Demo.wordProviders 2 Demo.twoDocs
    [Demo.onlyStep] Demo.twoDocs (Demo.two_orders _) (by decide) Demo.onlyStep_eq Demo.echoNet
    (by
      intro b i d s step hrow hstep
      obtain ⟨rfl, _⟩ := Demo.twoRows hrow
      injection hstep with hstep
      subst hstep
      exact ⟨_, rfl, fun P hP => hP⟩)
    (by
      intro b i d s step f A hrow hstep hf _ hA
      obtain ⟨rfl, h⟩ := Demo.twoRows hrow
      injection hstep with hstep
      subst hstep
      injection hA with hA
      subst hA
      rcases h with ⟨rfl, rfl, rfl⟩ | ⟨rfl, rfl, rfl⟩ <;>
      · injection hf with hf
        subst hf
        exact ⟨_, rfl, Demo.rowLabels_single rfl⟩)
    Demo.shortDoc Demo.short_built (by simp [Demo.twoDocs]) (by simp [Demo.twoDocs])
    (by
      intro x _ p hp
      simp only [Demo.wordProviders, List.mem_cons, List.not_mem_nil, or_false] at hp
      rcases hp with rfl | rfl <;> trivial)
  refine ⟨d', h1, ?_⟩
  have h : (trainedTag id Demo.float 0 (Demo.ptok 0) Demo.twoSeen Demo.wordProviders Demo.echoNet Demo.shortDoc).map
      (fun d' => d'.tokens.map Token.lemma') = .ok [some "x".toList] := by decide +kernel
  rw [h1] at h
  injection h

example := C134_features id Demo.float 0 (Demo.ptok 0) Demo.twoSeen Demo.wordProviders 2 Demo.twoDocs
    [Demo.onlyStep] (by decide) Demo.onlyStep_eq 0 1 Demo.shortDoc ⟨0, 1, by decide⟩ ⟨by decide, rfl⟩ Demo.short_built

example := C134_labels id Demo.float 0 (Demo.ptok 0) Verif.keepAll Demo.twoSeen Demo.wordProviders 2 Demo.twoDocs
    [Demo.onlyStep] (by decide) Demo.onlyStep_eq 0 1 Demo.shortDoc ⟨0, 1, by decide⟩ ⟨by decide, rfl⟩ Demo.short_built

end Verif
