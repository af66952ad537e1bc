import Verif.Proofs.Total
import Verif.Props.Vocabulary

/-!
# Tagging does not fail: C138
-/

namespace Verif

section
variable {F : Type} (lower : Str → Str) (float : Str → Res F) (zero : F) (seen : Seen) (ps : List Provider)

/-- C138: the features of every batch can be computed: at least one sentence, and every sentence with at least one word,
whatever the words are; there is a value for exactly the features of the providers. -/
theorem C138_features (tok : Nat → TextToken) (r : Assembled F)
    (h : assemble lower float zero tok keepAll seen ps = .ok r) (hn : (featureNames ps).Nodup) (n : Nat)
    (os : List Obj) (hos : os ≠ []) (hitems : ∀ o ∈ os, o.items ≠ []) :
    ∃ D, r.features (.mk n os) = .ok D ∧ ∀ k, k ∈ D.keys ↔ k ∈ featureNames ps := by
  obtain ⟨f, l, x, y, hf, _, hx, _, rfl⟩ := assemble_ok.1 h
  exact features_total hf hx hn hos hitems

/-- C138: features and labels of different providers never get mixed up: if there are features, or labels, for some batch
of sentences with words, then no two of them have the same name, and there is one for every provider that has features, or
labels (whatever the sparsification does). -/
theorem C138_distinct (tok : Nat → TextToken) (sp : Sparsify) (r : Assembled F)
    (h : assemble lower float zero tok sp seen ps = .ok r) (n : Nat) (os : List Obj) (hos : os ≠ [])
    (hitems : ∀ o ∈ os, o.items ≠ []) :
    (∀ D, r.features (.mk n os) = .ok D → (featureNames ps).Nodup ∧ ∀ k, k ∈ D.keys ↔ k ∈ featureNames ps) ∧
    ∀ D, r.labels (.mk n os) = .ok D → (labelNames ps).Nodup ∧ ∀ k, k ∈ D.keys ↔ k ∈ labelNames ps := by
  obtain ⟨f, l, x, y, hf, hl, hx, hy, rfl⟩ := assemble_ok.1 h
  exact ⟨fun D hD => assembled_names (mk := fun id p => p.feature id) feature_levels hf hx hos hitems hD,
    fun D hD => assembled_names (mk := fun id p => p.label id) label_levels hl hy hos hitems hD⟩

variable (other : TextToken)

/-- C138: a tagger never fails if its network answers with ids within the announced sizes: whatever the document and
whatever the ids, tagging gives a document that differs from the given one in tags and lemmas only. -/
theorem C138_tags (hu : Usable lower float zero seen ps) (net : Features → Res Features) (d : Document) (hd : Built d)
    (hnet : NetWithin lower float zero other seen ps net d) :
    ∃ d', trainedTag lower float zero other seen ps net d = .ok d' ∧ Built d' ∧ Retagged d d' := by
  obtain ⟨tok, sp, r0, hr0⟩ := hu.assembled
  obtain ⟨r, hr⟩ : ∃ r : Assembled F, assemble lower float zero (docTok other d) keepAll seen ps = .ok r := by
    obtain ⟨r1, hr1⟩ := (C120_builds lower float zero tok keepAll seen ps).2
      ((C120_builds lower float zero tok sp seen ps).1 ⟨r0, hr0⟩)
    obtain ⟨r2, h2, _⟩ := assemble_same (tok' := docTok other d) (hs := []) (hs' := []) .nil hr1
    exact ⟨r2, h2⟩
  obtain ⟨S, hS, _⟩ := (C120_shapes lower float zero (docTok other d) keepAll seen ps r hr).1 hu.announced
  have hpred : ∀ s ∈ d.sentences, ∃ P, predictSentence lower float zero other seen ps net d s = .ok P ∧
      AnswersWithin ps S (s.stop - s.start) P := by
    intro s hs
    have hlt := s.lt
    obtain ⟨D, hD, _⟩ := C138_features lower float zero seen ps _ r hr hu.features 0
      [.mk 0 ((List.range' s.start (s.stop - s.start)).map (fun k => .mk k []))] (by simp) (by
        intro o ho
        rw [List.mem_singleton] at ho
        subst ho
        simp only [Obj.items, ne_eq, List.map_eq_nil_iff, List.range'_eq_nil_iff]
        omega)
    obtain ⟨P, hP, hw⟩ := hnet r S s D hr hS hs hD
    refine ⟨P, ?_, hw⟩
    rw [predictSentence, hr]
    simp only [sentenceBatch, hD, hP]
  obtain ⟨i, hi⟩ := C124_builds lower float zero (docTok other d) keepAll seen ps r hr
  obtain ⟨f, l, x, y, _, hl, _, hy, hrr⟩ := assemble_ok.1 hr
  have htag : ∃ d', tagDocument lower i (predictSentence lower float zero other seen ps net) d = .ok d' ∧
      Retagged d d' := by
    by_cases hne : labelSpecs ps = []
    · have hn0 : labelNames ps = [] := by
        rw [labelNames, ← List.map_filterMap]
        simpa [labelSpecs] using hne
      obtain ⟨d', h3, h4, _⟩ := C124_no_labels lower seen ps _ hi hn0 _ d hd
        (fun s hs' => by obtain ⟨P, hP, _⟩ := hpred s hs'; exact ⟨P, hP⟩)
      exact ⟨d', h3, h4⟩
    · obtain ⟨ws, rfl, ss, h1, h2⟩ := assembleInterp_ok hi
      have hws : ws ≠ [] := by
        rintro rfl
        cases h2
        exact hne (List.nil_perm.1 h1)
      rw [tagDocument_eq lower ws hws]
      haveI : Inhabited Features := ⟨Dict.empty⟩
      choose! P hP hPw using hpred
      obtain ⟨d', h3, h4, _⟩ := neuralTag_total (lower := lower) (is := ws)
        (predict := asPredicted (predictSentence lower float zero other seen ps net)) hd.docOk
        (labels := fun s => mapDict (fun v => featRows (Feat.items v)) (P s)) (by
          intro s hs
          obtain ⟨w1, w2⟩ := hPw s hs
          have hall : ∀ k v, (P s).get? k = some v → ∃ rows : List (List Int), v = .list [.list (rows.map idsFeat)] ∧
              rows.length = s.stop - s.start := by
            intro k v hv
            obtain ⟨sh, rows, _, g2, g3, _⟩ := w2 k (w1 k (Dict.get?_isSome.1 (by rw [hv]; rfl)))
            rw [hv] at g2
            injection g2 with g2
            exact ⟨rows, g2, g3⟩
          refine ⟨mapDict Feat.items (P s), ?_, ?_, ?_, ?_⟩
          · rw [asPredicted, hP s hs]
            refine asSequences_lists (fun k v hv => ?_)
            obtain ⟨rows, rfl, _⟩ := hall k v hv
            rfl
          · rw [mapDict_keys, mapDict_keys]
          · rw [mapDict_keys]
            obtain ⟨t, rest, hcons⟩ := List.exists_cons_of_ne_nil hne
            have ht : t.name ∈ labelNames ps := by
              rw [labelNames, ← List.map_filterMap]
              exact List.mem_map.2 ⟨t, by rw [show ps.filterMap Provider.labelSpec = labelSpecs ps from rfl, hcons]; simp, rfl⟩
            obtain ⟨sh, rows, _, g2, _⟩ := w2 _ ht
            exact List.ne_nil_of_mem (Dict.get?_isSome.1 (by rw [g2]; rfl))
          · intro k rows hrows
            obtain ⟨v, hv1, hv2⟩ := (mapDict_get? _ _ _ _).1 hrows
            obtain ⟨rows', rfl, hlen⟩ := hall k v hv1
            have : rows = rows' := by
              rw [hv2]
              exact featRows_sentence _
            subst this
            refine ⟨hlen, ?_⟩
            rw [mapDict_get?]
            exact ⟨_, hv1, rfl⟩)
        (by
          intro s hs w hw
          obtain ⟨t, ht1, ht2⟩ := forall₂_mem_right h2 hw
          have ht3 := h1.mem_iff.1 ht1
          obtain ⟨p, hp1, hp2⟩ := List.mem_filterMap.1 ht3
          obtain ⟨z, hz⟩ : ∃ z, t.build lower float zero (docTok other d) (seen t) = .ok z := by
            exact ((C120_builds lower float zero (docTok other d) keepAll seen ps).1 ⟨r, hr⟩).2 t
              (List.mem_append_right _ ht3)
          obtain ⟨hname, htr, dd, sh, hdd, hsh, hall⟩ := allowed_inRange hp2 hz ht2
          have hSh := shape_of hr hS (List.mem_append_right _ ht3) hz hdd hsh
          have hmem : t.name ∈ labelNames ps := by
            rw [labelNames, ← List.map_filterMap]
            exact List.mem_map.2 ⟨t, ht3, rfl⟩
          obtain ⟨sh', rows, g1, g2, g3, g4⟩ := (hPw s hs).2 t.name hmem
          rw [hSh] at g1
          injection g1 with g1
          subst g1
          refine ⟨htr, rows, ?_, fun ids hids => hall ids (g4 ids hids)⟩
          rw [hname, mapDict_get?]
          exact ⟨_, g2, (featRows_sentence _).symm⟩)
      exact ⟨d', h3, h4⟩
  obtain ⟨d', h3, h4⟩ := htag
  refine ⟨d', ?_, ?_, h4⟩
  · unfold trainedTag
    rw [hi]
    exact h3
  · by_cases h0 : d'.tokens = []
    · have ht := h4.tokens
      rw [h0] at ht
      have hdd : d' = d := by
        obtain ⟨a, b, c⟩ := d
        obtain ⟨a', b', c'⟩ := d'
        have e1 : a' = a := h4.text
        have e2 : c' = c := h4.sentences
        have e3 : b' = [] := h0
        have e4 : b = [] := List.forall₂_nil_right_iff.1 ht
        rw [e1, e2, e3, e4]
      rw [hdd]
      exact hd
    · exact (trained_said (lower := lower) (float := float) (zero := zero) (other := other) (seen := seen) (ps := ps)
        (net := net) (dataset := (leafSpecs ps).flatMap seen) (fun s hs g hg => List.mem_flatMap.2 ⟨s, hs, hg⟩) hd (by unfold trainedTag; rw [hi]; exact h3) h0).1

/-- C138: the tagger is evaluated on every gold file that can be read, whatever its network answers within the announced
sizes: nothing fails, and UPOS, XPOS, Feats, AllTags and Lemmas are the shares of words for which the columns of the gold
file are what the tagger says. -/
theorem C138_scores (dataset : List Document)
    (hin : ∀ s ∈ leafSpecs ps, ∀ g ∈ seen s, g ∈ dataset) {depth : Nat} {text : Str} {docs : List Document} {ud : UD} (hr : '\r' ∉ text)
    (hc : CommentsPlain text) (h1 : readFromStr 1 defaultCols text = .ok (docs, none))
    (h2 : loadConllu depth text = .ok ud) (hd : 2 ≤ depth)
    (hdata : ∀ g ∈ dataset, ∀ t ∈ g.tokens, TokenPlain g.text t) (hlower : ∀ s, Plain s → Plain (lower s))
    (hclear : ∀ p ∈ ps, p.clear dataset) (hcut : ∀ p ∈ ps, p.cuts) (hu : Usable lower float zero seen ps)
    (net : Features → Res Features)
    (hnet : ∀ blind, prepareTestData docs = .ok blind → ∀ d ∈ blind, NetWithin lower float zero other seen ps net d) :
    ∃ blind pred table, prepareTestData docs = .ok blind ∧
      mapM' (trainedTag lower float zero other seen ps net) blind = .ok pred ∧
      testFile lower depth text (mapM' (trainedTag lower float zero other seen ps net)) = .ok table ∧
      ∀ name cols f, (name, cols, f) ∈ fileMetrics → ∃ s, table.get? name = some s ∧
        IsScore s (allTokens docs).length (allTokens docs).length
          (sameCount (columnValues cols ud) ((allTokens pred).map f)) (some (allTokens docs).length) := by
  obtain ⟨v1, v2, _⟩ := read_again hr hc h1 h2
  obtain ⟨blind, hblind, hb⟩ := C53_blind (fun d hd => (v1 d hd).built)
  have hne := read_tokens h1
  have hbb : ∀ o ∈ blind, Built o ∧ o.tokens ≠ [] := fun o ho => by
    obtain ⟨d, hd, h⟩ := forall₂_mem_right hb ho
    refine ⟨h.1, fun h0 => hne d hd ?_⟩
    have := h.2.2.2
    rw [h0] at this
    exact List.forall₂_nil_right_iff.1 this
  have key : ∀ o ∈ blind, ∃ e, trainedTag lower float zero other seen ps net o = .ok e ∧ Built e ∧ Retagged o e :=
    fun o ho => C138_tags lower float zero seen ps other hu net o (hbb o ho).1 (hnet blind hblind o ho)
  obtain ⟨pred, hpred⟩ : ∃ pred, mapM' (trainedTag lower float zero other seen ps net) blind = .ok pred :=
    mapM'_total (fun o ho => by obtain ⟨e, he, _⟩ := key o ho; exact ⟨e, he⟩)
  obtain ⟨table, g1, g2⟩ := C135_scores lower float zero other seen ps net dataset hin hr hc h1 h2 hd hdata hlower hclear hcut hblind
    hpred (by
      intro e he h0
      obtain ⟨o, ho, hoe⟩ := forall₂_mem_right ((mapM'_ok_iff).1 hpred) he
      obtain ⟨e', he', _, hrt⟩ := key o ho
      rw [hoe] at he'
      injection he' with he'
      subst he'
      have := hrt.tokens
      rw [h0] at this
      exact (hbb o ho).2 (List.forall₂_nil_right_iff.1 this))
  exact ⟨blind, pred, table, hblind, hpred, g1, g2⟩

end

namespace Demo

theorem letterUsable : Usable id float 0 letterSeen letterProviders where
  assembled := by
    cases h : assemble id float 0 (docTok (ptok 0) letterDoc1) Verif.keepAll letterSeen letterProviders with
    | ok r => exact ⟨_, _, r, h⟩
    | error e =>
      have : ((assemble id float 0 (docTok (ptok 0) letterDoc1) Verif.keepAll letterSeen letterProviders).map fun _ => ()) =
        .ok () := rfl
      rw [h] at this
      cases this
  features := by decide
  announced := by decide

/-- The sizes announced for the letters. -/
def letterSizes : Dict Str Shape := Dict.ofList [("w".toList, .dims [some 4]), ("l".toList, .parts [("LEMMA".toList, 2)]),
  ("p".toList, .parts [("UPOS".toList, 2), ("XPOS".toList, 2), ("FEATS".toList, 2)])]

/-- A document without annotations. -/
def bare (d : Document) : Document :=
  { d with
    tokens := d.tokens.map fun t =>
      { t with pos := none, lemma' := none, deprel := none, headDoc := none, headSent := none } }

theorem letterWithin {d : Document} {ids : List Int} {s : Sentence} (hd : d.sentences = [s]) (hs : s.stop - s.start = ids.length)
    (h : ((assemble id float 0 (docTok (ptok 0) d) Verif.keepAll letterSeen letterProviders).bind fun r =>
      r.shapes.bind fun S => (r.features (sentenceBatch s)).map fun f => (S, f)) =
      .ok (letterSizes, Dict.ofList [("w".toList, .list [idsFeat ids])])) :
    NetWithin id float 0 (ptok 0) letterSeen letterProviders mixedNet d := by
  intro r S s' f hr hS hs' hf
  rw [hd, List.mem_singleton] at hs'
  subst hs'
  rw [hr] at h
  simp only [Except.bind] at h
  rw [hS, hf] at h
  injection h with h
  injection h with e1 e2
  subst e1 e2
  refine ⟨Dict.ofList [("l".toList, .list [.list ((ids.map fun _ => [0]).map idsFeat)]),
      ("p".toList, .list [.list ((ids.map fun _ => [0, 1, 1]).map idsFeat)])], ?_, ?_, ?_⟩
  · have : mixedNet (Dict.ofList [("w".toList, .list [idsFeat ids])]) =
        .ok (Dict.ofList [("l".toList, eachWord (fun _ => .list [.int 0]) (.list [idsFeat ids])),
          ("p".toList, eachWord (fun _ => .list [.int 0, .int 1, .int 1]) (.list [idsFeat ids]))]) := rfl
    rw [this]
    simp only [eachWord, idsFeat, List.map_cons, List.map_nil, List.map_map]
    rfl
  · intro k hk
    exact hk
  · intro k hk
    have hk : k ∈ ["l".toList, "p".toList] := hk
    rw [List.mem_cons, List.mem_singleton] at hk
    rcases hk with rfl | rfl
    · refine ⟨.parts [("LEMMA".toList, 2)], _, rfl, rfl, by simp [hs], ?_⟩
      intro x hx
      obtain ⟨_, _, rfl⟩ := List.mem_map.1 hx
      exact .cons (by decide) .nil
    · refine ⟨.parts [("UPOS".toList, 2), ("XPOS".toList, 2), ("FEATS".toList, 2)], _, rfl, rfl, by simp [hs], ?_⟩
      intro x hx
      obtain ⟨_, _, rfl⟩ := List.mem_map.1 hx
      exact .cons (by decide) (.cons (by decide) (.cons (by decide) .nil))

end Demo

/-- Two providers with the same feature: there are no features for the sentence. -/
example : ∃ r : Assembled Int, assemble id Demo.float 0 (docTok (Demo.ptok 0) Demo.letterDoc1) keepAll Demo.letterSeen
      [.trainable "w".toList 0 false, .trainable "w".toList 0 false, .posDict "p".toList .uxf] = .ok r ∧
    r.features (sentenceBatch ⟨0, 2, by decide⟩) = .error .value := ⟨_, rfl, rfl⟩

example : ∃ r : Assembled Int, assemble id Demo.float 0 (docTok (Demo.ptok 0) Demo.letterDoc1) keepAll Demo.letterSeen
      Demo.letterProviders = .ok r ∧ (featureNames Demo.letterProviders).Nodup := by
  obtain ⟨r, hr⟩ : ∃ r : Assembled Int, assemble id Demo.float 0 (docTok (Demo.ptok 0) Demo.letterDoc1) keepAll Demo.letterSeen
      Demo.letterProviders = .ok r := ⟨_, rfl⟩
  obtain ⟨D, hD, _⟩ := C138_features id Demo.float 0 Demo.letterSeen Demo.letterProviders _ r hr (by decide) 0
    (sentenceBatch ⟨0, 2, by decide⟩).items (by decide) (by decide)
  exact ⟨r, hr, ((C138_distinct id Demo.float 0 Demo.letterSeen Demo.letterProviders _ _ r hr 0
    (sentenceBatch ⟨0, 2, by decide⟩).items (by decide) (by decide)).1 D hD).1⟩

/-- A network that gives every word the same tag and lemma is within the sizes: it tags and is evaluated. -/
example : (∃ d', trainedTag id Demo.float 0 (Demo.ptok 0) Demo.letterSeen Demo.letterProviders Demo.mixedNet Demo.letterDoc1 =
      .ok d' ∧ Built d' ∧ Retagged Demo.letterDoc1 d') ∧
    ∃ table, testFile id 10 Demo.letterFile (mapM' (trainedTag id Demo.float 0 (Demo.ptok 0) Demo.letterSeen
      Demo.letterProviders Demo.mixedNet)) = .ok table := by
  refine ⟨C138_tags id Demo.float 0 Demo.letterSeen Demo.letterProviders (Demo.ptok 0) Demo.letterUsable Demo.mixedNet _
    (Demo.letter_built Demo.letterDoc1 List.mem_cons_self) (Demo.letterWithin (ids := [2, 3]) rfl rfl rfl), ?_⟩
  obtain ⟨ud, hu⟩ := Demo.letterLoad
  obtain ⟨v1, v2, _⟩ := read_again (by decide +kernel) (by decide +kernel) Demo.letterRead hu
  obtain ⟨_, _, table, _, _, h, _⟩ := C138_scores id Demo.float 0 Demo.letterSeen Demo.letterProviders (Demo.ptok 0)
    Demo.letterDocs (Demo.letter_orders _).sub (by decide +kernel) (by decide +kernel) Demo.letterRead hu (by decide) (fun g hg => (v2 g hg).plain) (fun s h => h)
    (by
      intro p hp
      simp only [Demo.letterProviders, List.mem_cons, List.not_mem_nil, or_false] at hp
      rcases hp with rfl | rfl | rfl
      · trivial
      · trivial
      · intro h
        cases h)
    (by
      intro p hp
      simp only [Demo.letterProviders, List.mem_cons, List.not_mem_nil, or_false] at hp
      rcases hp with rfl | rfl | rfl <;> trivial)
    Demo.letterUsable Demo.mixedNet
    (by
      intro blind hb
      have hbl : prepareTestData Demo.letterDocs = .ok (Demo.letterDocs.map Demo.bare) := by decide +kernel
      rw [hbl] at hb
      injection hb with hb
      subst hb
      intro d hd
      obtain ⟨g, hg, rfl⟩ := List.mem_map.1 hd
      simp only [Demo.letterDocs, List.mem_cons, List.not_mem_nil, or_false] at hg
      rcases hg with rfl | rfl
      · exact Demo.letterWithin (ids := [2, 3]) rfl rfl rfl
      · exact Demo.letterWithin (ids := [2]) rfl rfl rfl)
  exact ⟨table, h⟩

end Verif
