import Verif.Proofs.TrainTotal
import Verif.Props.Total

/-!
# Training does not fail: C139
-/

namespace Verif

section
variable {F : Type} (lower : Str → Str) (float : Str → Res F) (zero : F) (other : TextToken) (seen : Seen)
  (ps : List Provider)

/-- The tokens of a sentence of the documents are tokens of the documents. -/
theorem StandsFor.mem {docs : List Document} {o : Obj} {p : Document × Sentence} (h : StandsFor docs o p)
    (hb : Built p.1) (other : TextToken) : ∀ w ∈ o.items, w.items = [] ∧ datasetTok other docs w.handle ∈ p.1.textTokens := by
  obtain ⟨hs, rfl, hs2⟩ := h.same hb other
  intro w hw
  obtain ⟨k, hk, rfl⟩ := List.mem_map.1 hw
  refine ⟨rfl, ?_⟩
  obtain ⟨k', hk', e⟩ := forall₂_mem_left hs2 hk
  rw [Obj.handle, e]
  have hstop := (hb.docOk.tiles.mem h.sentence).2
  have hlt : k' < p.1.textTokens.length := by
    have : p.1.textTokens.length = p.1.tokens.length := by simp [Document.textTokens]
    rw [List.mem_range'_1] at hk'
    omega
  rw [docTok, List.getD_eq_getElem?_getD, List.getElem?_eq_getElem hlt]
  exact List.getElem_mem hlt

/-- C139: an epoch of training never fails on documents of the data the extractors were built from, if the providers can be
used together: whatever the size of the minibatches, the order of the documents, the rate of sparsification and the random
numbers are, what the network is trained on can be computed for every step. -/
theorem C139_feed (hu : Usable lower float zero seen ps) (rate : Rat) (rnd : Obj → Str → Nat → Rat) (n : Int)
    (docs : List Document) (hdocs : ∀ d ∈ docs, (∀ s ∈ leafSpecs ps, d ∈ seen s) ∧ Built d) :
    ∃ steps, trainingFeed lower float zero other (fun o k f => (sparseRate (rnd o k) rate f 0).map Prod.fst) seen ps n
      docs = .ok steps := by
  generalize hsp0 : (fun o k f => (sparseRate (rnd o k) rate f 0).map Prod.fst : Sparsify) = sp
  have hsp : OnlySparsifies sp := by
    rw [← hsp0]
    exact C119_sparsifies rate rnd
  have htot : ∀ o k f, ¬ f.HasOther → ∃ f', sp o k f = .ok f' := by
    intro o k f hf
    obtain ⟨f', k', h, _⟩ := (C42_sparse (rnd o k) rate f 0).1 hf
    exact ⟨f', by rw [← hsp0]; simp only [h, Except.map]⟩
  obtain ⟨tok, sp1, r0, hr0⟩ := hu.assembled
  obtain ⟨r1, hr1⟩ : ∃ r : Assembled F, assemble lower float zero (datasetTok other docs) keepAll seen ps = .ok r := by
    obtain ⟨r1, hr1⟩ := (C120_builds lower float zero tok keepAll seen ps).2
      ((C120_builds lower float zero tok sp1 seen ps).1 ⟨r0, hr0⟩)
    obtain ⟨r2, h2, _⟩ := assemble_same (tok' := datasetTok other docs) (hs := []) (hs' := []) .nil hr1
    exact ⟨r2, h2⟩
  obtain ⟨r2, hr2⟩ := (C120_builds lower float zero (datasetTok other docs) sp seen ps).2
    ((C120_builds lower float zero (datasetTok other docs) keepAll seen ps).1 ⟨r1, hr1⟩)
  unfold trainingFeed
  simp only [hr1, hr2]
  refine mapM'_total (fun os hos => ?_)
  have hchunk := minibatches_chunks n (sentenceObjs 0 docs)
  have hne : os ≠ [] := by
    rintro rfl
    have := (hchunk.2.1 [] hos).1
    simp at this
  have hstand : ∀ o ∈ os, ∃ p, StandsFor docs o p := by
    intro o ho
    have hm : o ∈ sentenceObjs 0 docs := by
      rw [← hchunk.1]
      exact List.mem_flatten.2 ⟨os, hos, ho⟩
    obtain ⟨p, _, hp⟩ := forall₂_mem_left (sentenceObjs_stand docs) hm
    exact ⟨p, hp⟩
  have hitems : ∀ o ∈ os, o.items ≠ [] := by
    intro o ho
    obtain ⟨p, hp⟩ := hstand o ho
    obtain ⟨off, rfl, _⟩ := hp.tokens
    exact sentenceObj_items off p.2
  obtain ⟨f, l, x, y, hf, hl, hx, hy, rfl⟩ := assemble_ok.1 hr1
  obtain ⟨f', l', x', y', hf', hl', hx', hy', rfl⟩ := assemble_ok.1 hr2
  rw [hf] at hf'
  injection hf' with hf'
  subst hf'
  obtain ⟨D, hD, _⟩ := features_total hf hx hu.features (n := 0) hne hitems
  obtain ⟨D', hD', _⟩ := sparse_total (spec_numbers Provider.featureSpec) hsp htot f x x' hx hx' _ D hD
  obtain ⟨L, hL⟩ := labels_total hl hy (announced_labels hu.announced) (n := 0) (os := os) (by
    intro o ho w hw
    obtain ⟨p, hp⟩ := hstand o ho
    obtain ⟨h1, h2⟩ := hp.mem (hdocs _ hp.doc).2 other w hw
    exact ⟨h1, fun s hs => List.mem_flatMap.2 ⟨p.1, (hdocs _ hp.doc).1 s (List.mem_append_right _ hs), h2⟩⟩)
  exact ⟨(D', L), by simp only [extractBatch, hD', hL]⟩

/-- C139: every label the network is trained on is one of the classes announced to it: for every word of every sentence the
ids agree with the announced sizes. -/
theorem C139_labels (hu : Usable lower float zero seen ps) (sp : Sparsify) (n : Nat) (hn : 0 < n) (docs : List Document)
    (hdocs : ∀ d ∈ docs, (∀ s ∈ leafSpecs ps, d ∈ seen s) ∧ Built d) (steps : List (Features × Features))
    (h : trainingFeed lower float zero other sp seen ps n docs = .ok steps) (b i : Nat) (d : Document) (s : Sentence)
    (hrow : TrainingRow n docs b i d s) :
    ∃ (step : Features × Features) (r : Assembled F) (S : Dict Str Shape) (D : Features), steps[b]? = some step ∧
      assemble lower float zero (docTok other d) keepAll seen ps = .ok r ∧ r.shapes = .ok S ∧
      RowLabels step.2 i (s.stop - s.start) D ∧ AnswersWithin ps S (s.stop - s.start) D := by
  have hds : (d, s) ∈ datasetSentences docs := List.mem_of_getElem? hrow.2
  obtain ⟨d', hd', hs'⟩ := List.mem_flatMap.1 hds
  obtain ⟨s', hs, e⟩ := List.mem_map.1 hs'
  injection e with e1 e2
  subst e1 e2
  obtain ⟨hdata, hb⟩ := hdocs _ hd'
  obtain ⟨step, r, D, h1, hr, hD, hR⟩ := C134_labels lower float zero other sp seen ps n docs steps hn h b i _ _ hrow hb
  obtain ⟨S, hS, _⟩ := (C120_shapes lower float zero (docTok other d') keepAll seen ps r hr).1 hu.announced
  refine ⟨step, r, S, D, h1, hr, hS, hR, ?_⟩
  have hn' := announced_labels hu.announced
  obtain ⟨f, l, x, y, _, hl, _, hy, hrr⟩ := assemble_ok.1 hr
  have hD' : y.extract (sentenceBatch s') = .ok D := by rw [← hD, hrr]
  rcases labels_built (labels_shape hl) hy with ⟨h0, h0'⟩ | ⟨ss, ys, g1, g2, g3, g4⟩
  · rw [h0'] at hD'
    injection hD' with hD'
    subst hD'
    have hn0 : labelNames ps = [] := by
      rw [labelNames, ← List.map_filterMap]
      simpa [labelSpecs] using h0
    refine ⟨fun k hk => by simp [Dict.empty, Dict.keys] at hk, fun k hk => ?_⟩
    rw [hn0] at hk
    cases hk
  have hperm : (ss.map LeafSpec.name).Perm (labelNames ps) := by
    rw [labelNames, ← List.map_filterMap]
    exact g1.map _
  have hlt := s'.lt
  have hstop := (hb.docOk.tiles.mem hs).2
  have htok : ∀ j ∈ List.range' s'.start (s'.stop - s'.start), ∀ t ∈ labelSpecs ps,
      docTok other d' j ∈ datasetTokens (seen t) := by
    intro j hj t ht
    rw [List.mem_range'_1] at hj
    have hj' : j < d'.textTokens.length := by
      have : d'.textTokens.length = d'.tokens.length := by simp [Document.textTokens]
      omega
    rw [docTok, List.getD_eq_getElem?_getD, List.getElem?_eq_getElem hj']
    exact List.mem_flatMap.2 ⟨d', hdata t (List.mem_append_right _ ht), List.getElem_mem hj'⟩
  have hw : ∀ t ∈ ss, ∃ m sh, S.get? t.name = some sh ∧ ∀ j ∈ List.range' s'.start (s'.stop - s'.start), ∃ ids,
      LabelOf lower float zero (docTok other d') (seen t) t j ids ∧ ids.length = m ∧ sh.Allows ids := by
    intro t ht
    have ht' := g1.mem_iff.1 ht
    obtain ⟨p, hp, hps⟩ := List.mem_filterMap.1 ht'
    obtain ⟨z, _, hz⟩ := forall₂_mem_left g3 ht
    obtain ⟨m, dd, sh, k1, k2, k3⟩ := label_within hps hz
    refine ⟨m, sh, shape_of hr hS (List.mem_append_right _ ht') hz k1 k2, fun j hj => ?_⟩
    obtain ⟨ids, k4, k5, k6⟩ := k3 (.mk j []) (htok j hj t ht')
    refine ⟨ids, fun z' hz' => ?_, k5, k6⟩
    rw [hz] at hz'
    injection hz' with hz'
    rw [← hz']
    exact k4
  haveI : Inhabited Shape := ⟨.dims []⟩
  choose! m sh k1 k2 using hw
  choose! enc k3 using k2
  obtain ⟨D2, k4, k5⟩ := labels_sentence g2 g3 (hperm.nodup_iff.2 hn')
    (hs := List.range' s'.start (s'.stop - s'.start)) (by
      simp only [ne_eq, List.range'_eq_nil_iff]
      omega) (fun t ht j hj => (k3 t ht j hj).1) (fun t ht => ⟨m t, fun j hj => (k3 t ht j hj).2.1⟩)
  have hDD : D2 = D := by
    rw [g4, sentenceBatch, k4] at hD'
    injection hD'
  subst hDD
  refine ⟨fun k hk => ?_, fun k hk => ?_⟩
  · obtain ⟨v, hv⟩ := Option.isSome_iff_exists.1 (Dict.get?_isSome.2 hk)
    obtain ⟨t, ht, e, _⟩ := (k5 k v).1 hv
    rw [← e]
    exact hperm.mem_iff.1 (List.mem_map.2 ⟨t, ht, rfl⟩)
  · obtain ⟨t, ht, rfl⟩ := List.mem_map.1 (hperm.mem_iff.2 hk)
    refine ⟨sh t, _, k1 t ht, (k5 _ _).2 ⟨t, ht, rfl, rfl⟩, by simp, fun ids hids => ?_⟩
    obtain ⟨j, hj, rfl⟩ := List.mem_map.1 hids
    exact (k3 t ht j hj).2.2

end

/-- Letters with tags and lemmas: an epoch over the documents in another order, with every value sparsified. -/
example : ∃ steps, trainingFeed id Demo.float 0 (Demo.ptok 0)
    (fun o k f => (sparseRate ((fun _ _ _ => 0 : Obj → Str → Nat → Rat) o k) 1 f 0).map Prod.fst) Demo.letterSeen
    Demo.letterProviders 2 Demo.letterDocs.reverse = .ok steps :=
  C139_feed id Demo.float 0 (Demo.ptok 0) Demo.letterSeen Demo.letterProviders Demo.letterUsable 1 _ 2 _
    (fun d hd => ⟨fun s hs => (Demo.letter_orders _ s hs).mem_iff.2 (List.mem_reverse.1 hd), Demo.letter_built d (List.mem_reverse.1 hd)⟩)

/-- A document that was not there when the extractors were built can make training fail: it has a word without a tag. -/
example : trainingFeed id Demo.float 0 (Demo.ptok 0) keepAll Demo.letterSeen Demo.letterProviders 2
    (Demo.letterDocs.map Demo.bare) = .error .attribute := rfl

example : ∃ steps, trainingFeed id Demo.float 0 (Demo.ptok 0) keepAll Demo.letterSeen Demo.letterProviders 2
      Demo.letterDocs = .ok steps ∧
    ∃ (step : Features × Features) (r : Assembled Int) (S : Dict Str Shape) (D : Features), steps[0]? = some step ∧
      assemble id Demo.float 0 (docTok (Demo.ptok 0) Demo.letterDoc1) keepAll Demo.letterSeen Demo.letterProviders = .ok r ∧
      r.shapes = .ok S ∧ RowLabels step.2 0 2 D ∧ AnswersWithin Demo.letterProviders S 2 D :=
  ⟨_, rfl, C139_labels id Demo.float 0 (Demo.ptok 0) Demo.letterSeen Demo.letterProviders Demo.letterUsable keepAll 2
    (by decide) Demo.letterDocs (fun d hd => ⟨fun s hs => (Demo.letter_orders _ s hs).mem_iff.2 hd, Demo.letter_built d hd⟩) _ rfl 0 0 Demo.letterDoc1 ⟨0, 2, by decide⟩
    ⟨by decide, rfl⟩⟩

end Verif
