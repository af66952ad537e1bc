import Verif.Proofs.Interpreters4
import Verif.Props.Providers

/-!
# Tagging with the assembled interpreters: C124
-/

namespace Verif

section
variable {F : Type} (lower : Str → Str) (float : Str → Res F) (zero : F) (tok : Nat → TextToken)
  (sp : Sparsify) (seen : Seen) (ps : List Provider)

/-- C124: whenever the extractors can be assembled, so can the interpreter of the labels. -/
theorem C124_builds (r : Assembled F) (h : assemble lower float zero tok sp seen ps = .ok r) :
    ∃ i, assembleInterp lower seen ps = .ok i := by
  obtain ⟨f, l, x, y, _, hl, _, hy, rfl⟩ := assemble_ok.1 h
  refine assembleInterp_total hl ?_
  intro s hs
  obtain ⟨p, hp, hps⟩ := List.mem_filterMap.1 hs
  rcases labels_built (labels_shape hl) hy with ⟨h0, _⟩ | ⟨ss, ys, h1, _, h3, _⟩
  · rw [h0] at hs; cases hs
  · obtain ⟨y', _, hy'⟩ := forall₂_mem_left h3 (h1.mem_iff.2 hs)
    obtain ⟨w, hw⟩ := build_interp hps hy'
    exact ⟨_, hw⟩

theorem wrapped_leaves {l : List (List Wrapper × Option (Nat × Nat))} {x : Wrapper} {P : Nat → Prop} :
    (∀ w ty id, (w, some (ty, id)) ∈ l → P id) ↔
    ∀ w ty id, (w, some (ty, id)) ∈ l.map (fun y => (x :: y.1, y.2)) → P id := by
  constructor
  · intro h w ty id h'
    obtain ⟨⟨w', o⟩, hy, he⟩ := List.mem_map.1 h'
    injection he with _ he
    subst he
    exact h w' ty id hy
  · intro h w ty id h'
    exact h (x :: w) ty id (List.mem_map.2 ⟨_, h', rfl⟩)

mutual
theorem interp_ok {lf : Nat → Res Interp} : (b : Builder) → ((∃ i, b.interp lf = .ok i) ↔
    b.WellFormed ∧ ∀ w ty id, (w, some (ty, id)) ∈ b.leaves → ∃ i, lf id = .ok i)
  | .padding b => by
    rw [Builder.interp, interp_ok b]
    simp only [Builder.WellFormed, Builder.leaves]
    exact and_congr_right fun _ => wrapped_leaves
  | .sparse b => by
    rw [Builder.interp, interp_ok b]
    simp only [Builder.WellFormed, Builder.leaves]
    exact and_congr_right fun _ => wrapped_leaves
  | .iter b => by
    have h : (∃ i, (Builder.iter b).interp lf = .ok i) ↔ ∃ i, b.interp lf = .ok i := by
      rw [Builder.interp]
      cases b.interp lf <;> simp
    rw [h, interp_ok b]
    simp only [Builder.WellFormed, Builder.leaves]
    exact and_congr_right fun _ => wrapped_leaves
  | .comp l => by
    have h : (∃ i, (Builder.comp l).interp lf = .ok i) ↔ ∃ is, Builder.interpL lf l = .ok is ∧ is ≠ [] := by
      rw [Builder.interp]
      cases Builder.interpL lf l with
      | error e => simp
      | ok is =>
        match is with
        | [] => simp [compInterp]
        | [i] => simp [compInterp]
        | i :: j :: is => simp [compInterp]
    rw [h, interpL_ok l]
    simp [Builder.WellFormed, Builder.leaves, and_assoc]
  | .empty => by simp [Builder.interp, Builder.WellFormed, Builder.leaves]
  | .leaf ty id => by
    simp only [Builder.interp, Builder.WellFormed, Builder.leaves, true_and]
    constructor
    · rintro h w ty' id' h'
      cases List.mem_singleton.1 h'
      exact h
    · intro h
      exact h [] ty id List.mem_cons_self
theorem interpL_ok {lf : Nat → Res Interp} : (l : List Builder) → ((∃ is, Builder.interpL lf l = .ok is ∧ is ≠ []) ↔
    l ≠ [] ∧ Builder.WellFormedL l ∧ ∀ w ty id, (w, some (ty, id)) ∈ Builder.leavesL l → ∃ i, lf id = .ok i)
  | [] => by simp [Builder.interpL]
  | b :: bs => by
    have h : (∃ is, Builder.interpL lf (b :: bs) = .ok is ∧ is ≠ []) ↔
        (∃ i, b.interp lf = .ok i) ∧ (bs = [] ∨ ∃ is, Builder.interpL lf bs = .ok is ∧ is ≠ []) := by
      rw [Builder.interpL]
      cases b.interp lf with
      | error e => simp
      | ok i =>
        cases bs with
        | nil => simp [Builder.interpL]
        | cons c cs =>
          cases hc : Builder.interpL lf (c :: cs) with
          | error e => simp
          | ok is =>
            have : is ≠ [] := by
              rw [Builder.interpL] at hc
              intro h0
              subst h0
              repeat' split at hc
              all_goals cases hc
            simp [this]
    rw [h, interp_ok b, interpL_ok bs]
    cases bs with
    | nil => simp [Builder.WellFormedL, Builder.leavesL]
    | cons c cs =>
      simp only [Builder.WellFormedL, Builder.leavesL, List.mem_append, reduceCtorEq, false_or, ne_eq, not_false_eq_true, true_and]
      constructor
      · rintro ⟨⟨a1, a2⟩, ⟨b1, b2⟩, b3⟩
        exact ⟨⟨a1, b1, b2⟩, fun w ty id h => h.elim (a2 w ty id) (fun h => b3 w ty id (by simpa [Builder.leavesL] using h))⟩
      · rintro ⟨⟨a1, b1, b2⟩, h⟩
        exact ⟨⟨a1, fun w ty id h' => h w ty id (.inl h')⟩, ⟨b1, b2⟩, fun w ty id h' => h w ty id (.inr (by simpa [Builder.leavesL] using h'))⟩
end

/-- C124: which builders have a label interpreter: those without a composite of no parts, all of whose parts have one. -/
theorem C124_interpreter (lf : Nat → Res Interp) (b : Builder) : (∃ i, b.interp lf = .ok i) ↔
    b.WellFormed ∧ ∀ w ty id, (w, some (ty, id)) ∈ b.leaves → ∃ i, lf id = .ok i := interp_ok b

/-- An extractor of nothing cannot be built. -/
example : ¬ ∃ i, (Builder.comp [.leaf 0 0, .iter (.comp [])]).interp (fun _ => .ok .nothing) = .ok i := by
  rw [C124_interpreter]
  simp [Builder.WellFormed, Builder.WellFormedL]

/-- C124: without labels, whatever is predicted, tagging changes no tag and no lemma. -/
theorem C124_no_labels (i : Interp) (hi : assembleInterp lower seen ps = .ok i) (hn : labelNames ps = [])
    (predict : Document → Sentence → Res Features) (d : Document) (hd : Built d)
    (hp : ∀ s ∈ d.sentences, ∃ P, predict d s = .ok P) :
    ∃ d', tagDocument lower i predict d = .ok d' ∧ Retagged d d' ∧
      List.Forall₂ (fun t u : Token => u.pos = t.pos ∧ u.lemma' = t.lemma') d.tokens d'.tokens := by
  obtain ⟨ws, rfl, ss, h1, h2⟩ := assembleInterp_ok hi
  have hss : ss = [] := by
    have : labelSpecs ps = [] := by
      have h0 : (labelSpecs ps).map LeafSpec.name = [] := by
        rw [← hn, labelNames, labelSpecs, List.map_filterMap]
      simpa using h0
    rw [this] at h1
    exact List.perm_nil.1 h1
  subst hss
  cases h2
  have hm : mapM' (predictAndInterpret lower (batchInterp []) predict d) d.sentences =
      .ok (d.sentences.map (fun s => slice d.textTokens s.start s.stop)) := by
    refine mapM'_pure (fun s hs => ?_)
    obtain ⟨P, hP⟩ := hp s hs
    rw [predictAndInterpret, hP]
    show chainTokens (.seq [.seq ((slice d.textTokens s.start s.stop).map .tok)]) = _
    have := chainTokens_seq [slice d.textTokens s.start s.stop]
    simpa using this
  have hdd := hd.docOk
  obtain ⟨d', h3, h4, h5⟩ := retagged_of hdd (ts := d.tokens)
    (List.forall₂_same.2 (fun t _ => ⟨t.pos, t.lemma', rfl⟩))
  refine ⟨d', ?_, h4, h5⟩
  rw [tagDocument, hm]
  simp only
  rw [textTokens_flatten hdd]
  have : d.textTokens.map Prod.snd = d.tokens := by
    simp [Document.textTokens, Function.comp_def]
  rw [this]
  exact h3

/-- C124: whatever is predicted, if tagging with the assembled interpreter raises nothing, the document keeps its text,
sentences, tokens, heads and everything else but tags and lemmas; or all its tokens are lost. -/
theorem C124_any_prediction (i : Interp) (hi : assembleInterp lower seen ps = .ok i)
    (predict : Document → Sentence → Res Features) (d d' : Document) (hd : Built d)
    (h : tagDocument lower i predict d = .ok d') :
    Retagged d d' ∨ (d'.text = d.text ∧ d'.tokens = [] ∧ d'.sentences = []) := by
  obtain ⟨ws, rfl, ss, h1, h2⟩ := assembleInterp_ok hi
  by_cases hne : ws = []
  · subst hne
    cases h2
    have hn : labelNames ps = [] := by
      have : labelSpecs ps = [] := List.nil_perm.1 h1
      rw [labelNames, show (fun p : Provider => p.labelSpec.map LeafSpec.name) =
        (fun p => (Provider.labelSpec p).map LeafSpec.name) from rfl, ← List.map_filterMap]
      simpa [labelSpecs] using this
    have hp : ∀ s ∈ d.sentences, ∃ P, predict d s = .ok P := by
      intro s hs
      unfold tagDocument at h
      cases hm : mapM' (predictAndInterpret lower (batchInterp []) predict d) d.sentences with
      | error e => rw [hm] at h; cases h
      | ok tss =>
        obtain ⟨ts, _, h3⟩ := forall₂_mem_left (mapM'_ok_iff.1 hm) hs
        unfold predictAndInterpret at h3
        cases hP : predict d s with
        | error e => rw [hP] at h3; cases h3
        | ok P => exact ⟨P, rfl⟩
    obtain ⟨d2, h3, h4, _⟩ := C124_no_labels lower seen ps _ hi hn predict d hd hp
    rw [h] at h3
    injection h3 with h3
    subst h3
    exact Or.inl h4
  · rw [tagDocument_eq lower ws hne] at h
    exact neuralTag_structure hd.docOk h

variable {lower float zero tok sp seen ps}

theorem Provider.tags_spec {p : Provider} (h : p.tags) : p.labelSpec ≠ none := by
  cases p <;> simp [Provider.tags] at h <;> simp [Provider.labelSpec]

theorem Provider.lemmaOf_spec {p : Provider} {g : TextToken} (h : (p.lemmaOf lower g).isSome) :
    p.labelSpec ≠ none ∧ ¬ p.tags := by
  cases p <;> simp [Provider.lemmaOf] at h <;> simp [Provider.labelSpec, Provider.tags]

/-- The labels of a sentence of known words. -/
theorem sentence_labels {l : Builder} {y : BuiltX F}
    (hl : mergeBuilders (ps.zipIdx.map (fun p => Provider.label p.2 p.1)) = .ok l)
    (hy : l.build (buildSpec lower float zero tok seen Provider.labelSpec ps) sp = .ok y)
    {dataset : List Document} (ho : seen.Orders ps dataset)
    (hne : labelSpecs ps ≠ []) (hn : (labelNames ps).Nodup) (s : Sentence)
    (hk : ∀ j : Nat, s.start ≤ j → j < s.stop → ∀ p ∈ ps, KnownFor lower dataset (tok j) p) :
    ∃ D, y.extract (sentenceBatch s) = .ok D ∧ ∀ k v, D.get? k = some v ↔ ∃ t ∈ labelSpecs ps, t.name = k ∧
      v = .list [.list (((List.range' s.start (s.stop - s.start)).map
        (encOf lower float zero tok (seen t) t)).map idsFeat)] := by
  rcases labels_built (labels_shape hl) hy with ⟨h0, _⟩ | ⟨ss, ys, h1, h2, h3, h4⟩
  · exact absurd h0 hne
  · have hlt := s.lt
    have hin : ∀ j ∈ List.range' s.start (s.stop - s.start), s.start ≤ j ∧ j < s.stop := by
      intro j hj
      rw [List.mem_range'_1] at hj
      omega
    have hgold : ∀ t ∈ ss, ∃ m, ∀ j ∈ List.range' s.start (s.stop - s.start),
        (encOf lower float zero tok (seen t) t j).length = m ∧
        LabelOf lower float zero tok (seen t) t j (encOf lower float zero tok (seen t) t j) := by
      intro t ht
      obtain ⟨p, hp, hps⟩ := List.mem_filterMap.1 (h1.mem_iff.1 ht)
      obtain ⟨y', _, hy'⟩ := forall₂_mem_left h3 ht
      obtain ⟨w, hw⟩ := build_interp hps hy'
      obtain ⟨m, hm⟩ := enc_gold hps hy' hw
      refine ⟨m, fun j hj => ?_⟩
      obtain ⟨_, h5, h6, _⟩ := hm j ((hk j (hin j hj).1 (hin j hj).2 p hp).perm (ho.label hp hps).symm)
      exact ⟨h5, h6⟩
    obtain ⟨D, h5, h6⟩ := labels_sentence h2 h3 (by
      have : (ss.map LeafSpec.name).Perm (labelNames ps) := by
        rw [labelNames, ← List.map_filterMap]
        exact h1.map _
      exact this.nodup_iff.2 hn) (hs := List.range' s.start (s.stop - s.start)) (by
      intro h0
      have := congrArg List.length h0
      simp only [List.length_range', List.length_nil] at this
      omega) (enc := fun t => encOf lower float zero tok (seen t) t)
      (fun t ht j hj => by obtain ⟨m, hm⟩ := hgold t ht; exact (hm j hj).2)
      (fun t ht => by obtain ⟨m, hm⟩ := hgold t ht; exact ⟨m, fun j hj => (hm j hj).1⟩)
    refine ⟨D, by rw [h4]; exact h5, ?_⟩
    intro k v
    rw [h6]
    simp only [h1.mem_iff]

/-- C124: the labels of a sentence of known words exist, one entry per label. -/
theorem C124_labels (r : Assembled F) (h : assemble lower float zero tok sp seen ps = .ok r)
    (dataset : List Document) (ho : seen.Orders ps dataset) (hn : (labelNames ps).Nodup) (s : Sentence)
    (hk : ∀ j : Nat, s.start ≤ j → j < s.stop → ∀ p ∈ ps, KnownFor lower dataset (tok j) p) :
    ∃ D, r.labels (sentenceBatch s) = .ok D ∧ ∀ k, k ∈ D.keys ↔ k ∈ labelNames ps := by
  obtain ⟨f, l, x, y, _, hl, _, hy, rfl⟩ := assemble_ok.1 h
  have hnames : ∀ k, k ∈ labelNames ps ↔ ∃ t ∈ labelSpecs ps, t.name = k := by
    intro k
    rw [labelNames, ← List.map_filterMap]
    exact List.mem_map
  by_cases hne : labelSpecs ps = []
  · rcases labels_built (labels_shape hl) hy with ⟨_, h1⟩ | ⟨ss, ys, h1, h2, _⟩
    · refine ⟨Dict.empty, by rw [h1], ?_⟩
      intro k
      rw [hnames, hne]
      simp [Dict.empty, Dict.keys]
    · rw [hne] at h1
      exact absurd (List.perm_nil.1 h1) h2
  · obtain ⟨D, h1, h2⟩ := sentence_labels hl hy ho hne hn s hk
    refine ⟨D, h1, fun k => ?_⟩
    rw [hnames, ← Dict.get?_isSome, Option.isSome_iff_exists]
    constructor
    · rintro ⟨v, hv⟩
      obtain ⟨t, ht, hk, _⟩ := (h2 k v).1 hv
      exact ⟨t, ht, hk⟩
    · rintro ⟨t, ht, hk⟩
      exact ⟨_, (h2 k _).2 ⟨t, ht, hk, rfl⟩⟩

/-- C124: a network that predicts the labels of the annotated document `g` turns `b`, the same document with other or no
annotation, into `g`: tags and lemmas are those of `g` as far as the providers have labels for them (lemmas encoded as
rules lose their case) and everything else is that of `b`.  The annotation has to be expressible by the labels. -/
theorem C124_oracle (r : Assembled F) (h : assemble lower float zero tok sp seen ps = .ok r)
    (i : Interp) (hi : assembleInterp lower seen ps = .ok i) (dataset : List Document)
    (ho : seen.Orders ps dataset) (hn : (labelNames ps).Nodup)
    (g b : Document) (hb : Built b) (hs : b.sentences = g.sentences)
    (ht : List.Forall₂ (fun t x : Token => tokText b.text t = tokText g.text x) b.tokens g.tokens)
    (htok : ∀ (k : Nat) x, g.tokens[k]? = some x → tok k = (tokText g.text x, x))
    (hk : ∀ x ∈ g.tokens, ∀ p ∈ ps, KnownFor lower dataset (tokText g.text x, x) p)
    (predict : Document → Sentence → Res Features)
    (hp : ∀ s ∈ b.sentences, ∃ P, predict b s = .ok P ∧ ∀ D, r.labels (sentenceBatch s) = .ok D → SameDict P D) :
    ∃ d', tagDocument lower i predict b = .ok d' ∧ Retagged b d' ∧
      ∀ (j : Nat) t x u, b.tokens[j]? = some t → g.tokens[j]? = some x → d'.tokens[j]? = some u →
        LabelledAs lower ps (tokText g.text x, x) t u := by
  obtain ⟨f, l, x, y, _, hl, _, hy, rfl⟩ := assemble_ok.1 h
  obtain ⟨ws, rfl, ss, h1, h2⟩ := assembleInterp_ok hi
  have hbd := hb.docOk
  have hlen : b.tokens.length = g.tokens.length := ht.length_eq
  have hknown : ∀ s ∈ b.sentences, ∀ j : Nat, s.start ≤ j → j < s.stop → ∀ p ∈ ps,
      KnownFor lower dataset (tok j) p := by
    intro s hs' j _ hj2 p hp'
    have hjl : j < g.tokens.length := by
      have := (hbd.tiles.mem hs').2
      omega
    rw [htok j _ (List.getElem?_eq_getElem hjl)]
    exact hk _ (List.getElem_mem _) p hp'
  by_cases hne : labelSpecs ps = []
  · have hn0 : labelNames ps = [] := by
      rw [labelNames, ← List.map_filterMap]
      simpa [labelSpecs] using hne
    obtain ⟨d', h3, h4, h5⟩ := C124_no_labels lower seen ps _ hi hn0 predict b hb
      (fun s hs' => by obtain ⟨P, hP, _⟩ := hp s hs'; exact ⟨P, hP⟩)
    refine ⟨d', h3, h4, ?_⟩
    intro j t x u hj1 hj2 hj3
    have hnone : ∀ p ∈ ps, p.labelSpec = none := by
      intro p hp'
      cases hps : p.labelSpec with
      | none => rfl
      | some s =>
        have : s ∈ labelSpecs ps := List.mem_filterMap.2 ⟨p, hp', hps⟩
        rw [hne] at this
        cases this
    rw [forall₂_getElem?] at h5
    obtain ⟨h6, h7⟩ := h5.2 j t u hj1 hj3
    constructor
    · rintro ⟨p, hp', hpt⟩
      exact absurd (hnone p hp') (Provider.tags_spec hpt)
    · exact fun _ => h6
    · rintro ⟨p, hp', hpt⟩
      exact absurd (hnone p hp') (Provider.lemmaOf_spec hpt).1
    · exact fun _ => h7
  · have hws : ws ≠ [] := by
      rintro rfl
      cases h2
      exact hne (List.nil_perm.1 h1)
    -- every interpreter belongs to a provider
    have hw : ∀ w ∈ ws, ∃ p ∈ ps, ∃ s ∈ labelSpecs ps, p.labelSpec = some s ∧ w.name = s.name ∧
        ∀ j, KnownFor lower dataset (tok j) p → w.Trained ∧
          Gold lower p (tok j) w (encOf lower float zero tok (seen s) s j) := by
      intro w hw
      obtain ⟨s, hs1, hs2⟩ := forall₂_mem_right h2 hw
      have hs3 := h1.mem_iff.1 hs1
      obtain ⟨p, hp1, hp2⟩ := List.mem_filterMap.1 hs3
      obtain ⟨w', hw1, hw2⟩ := label_interp hp2 hs2
      injection hw1 with hw1
      subst hw1
      rcases labels_built (labels_shape hl) hy with ⟨h0, _⟩ | ⟨ss', ys, h3, _, h5, _⟩
      · exact absurd h0 hne
      · obtain ⟨y', _, hy'⟩ := forall₂_mem_left h5 (h3.mem_iff.2 hs3)
        obtain ⟨m, hm⟩ := enc_gold hp2 hy' hs2
        refine ⟨p, hp1, s, hs3, hp2, hw2, fun j hj => ?_⟩
        obtain ⟨a, _, _, d⟩ := hm j (hj.perm (ho.label hp1 hp2).symm)
        exact ⟨a, d⟩
    -- every provider has an interpreter
    have hw' : ∀ p ∈ ps, ∀ s, p.labelSpec = some s → ∃ w ∈ ws, (w.tagsPos = true ↔ p.tags) := by
      intro p hp1 s hp2
      obtain ⟨w, hw1, hw2⟩ := forall₂_mem_left h2 (h1.mem_iff.2 (List.mem_filterMap.2 ⟨p, hp1, hp2⟩))
      refine ⟨w, hw1, ?_⟩
      cases p <;> simp only [Provider.labelSpec, reduceCtorEq, Option.some.injEq] at hp2 <;> subst hp2 <;>
        simp only [LeafSpec.interp] at hw2 <;> split at hw2 <;> cases hw2 <;>
        simp [WordInterp.tagsPos, Provider.tags]
    rw [tagDocument_eq lower ws hws]
    have hpred : ∀ s ∈ b.sentences, ∃ P, predict b s = .ok P ∧ ∀ k v, P.get? k = some v ↔
        ∃ t ∈ labelSpecs ps, t.name = k ∧ v = .list [.list (((List.range' s.start (s.stop - s.start)).map
          (encOf lower float zero tok (seen t) t)).map idsFeat)] := by
      intro s hs'
      obtain ⟨P, hP, hPD⟩ := hp s hs'
      obtain ⟨D, hD1, hD2⟩ := sentence_labels hl hy ho hne hn s (hknown s hs')
      refine ⟨P, hP, fun k v => ?_⟩
      rw [hPD D hD1 k]
      exact hD2 k v
    haveI : Inhabited Features := ⟨Dict.empty⟩
    choose! P hP hPk using hpred
    have hnd : ∀ t ∈ labelSpecs ps, ∀ t' ∈ labelSpecs ps, t.name = t'.name → t = t' := by
      intro t ht1 t' ht2 hnm
      have hn' : ((labelSpecs ps).map LeafSpec.name).Nodup := by
        have := hn
        rw [labelNames, ← List.map_filterMap] at this
        exact this
      exact List.inj_on_of_nodup_map hn' ht1 ht2 hnm
    have hrows : ∀ s ∈ b.sentences, ∀ t ∈ labelSpecs ps,
        (mapDict (fun v => featRows (Feat.items v)) (P s)).get? t.name =
          some ((List.range' s.start (s.stop - s.start)).map (encOf lower float zero tok (seen t) t)) := by
      intro s hs' t ht1
      rw [mapDict_get?]
      refine ⟨_, (hPk s hs' _ _).2 ⟨t, ht1, rfl, rfl⟩, ?_⟩
      exact (featRows_sentence _).symm
    obtain ⟨d', h3, h4, h5⟩ := neuralTag_total (lower := lower) (is := ws) (predict := asPredicted predict) hbd
      (labels := fun s => mapDict (fun v => featRows (Feat.items v)) (P s)) (by
        intro s hs'
        have hlist : ∀ k v, (P s).get? k = some v → v.isList = true := by
          intro k v hv
          obtain ⟨t, _, _, rfl⟩ := (hPk s hs' k v).1 hv
          rfl
        refine ⟨mapDict Feat.items (P s), ?_, ?_, ?_, ?_⟩
        · rw [asPredicted, hP s hs']
          exact asSequences_lists hlist
        · rw [mapDict_keys, mapDict_keys]
        · rw [mapDict_keys]
          obtain ⟨t, rest, hcons⟩ := List.exists_cons_of_ne_nil hne
          have ht1 : t ∈ labelSpecs ps := by rw [hcons]; simp
          have := (hPk s hs' t.name _).2 ⟨t, ht1, rfl, rfl⟩
          exact List.ne_nil_of_mem (Dict.get?_isSome.1 (by rw [this]; rfl))
        · intro k rows hr
          obtain ⟨v, hv1, hv2⟩ := (mapDict_get? _ _ _ _).1 hr
          obtain ⟨t, ht1, ht2, rfl⟩ := (hPk s hs' k v).1 hv1
          have : rows = (List.range' s.start (s.stop - s.start)).map (encOf lower float zero tok (seen t) t) := by
            rw [hv2]
            exact featRows_sentence _
          subst this
          refine ⟨by simp, ?_⟩
          rw [mapDict_get?]
          exact ⟨_, hv1, rfl⟩)
      (by
        intro s hs' w hw1
        obtain ⟨p, hp1, t, ht1, _, ht2, hg⟩ := hw w hw1
        have hlt := s.lt
        refine ⟨(hg s.start (hknown s hs' _ le_rfl hlt p hp1)).1, _, by rw [ht2]; exact hrows s hs' t ht1, ?_⟩
        intro ids hids
        obtain ⟨j, hj, rfl⟩ := List.mem_map.1 hids
        rw [List.mem_range'_1] at hj
        exact (hg j (hknown s hs' j (by omega) (by omega) p hp1)).2.range)
    refine ⟨d', h3, h4, ?_⟩
    intro j t x u hj1 hj2 hj3
    have hjl : j < b.tokens.length := (List.getElem?_eq_some_iff.1 hj1).1
    obtain ⟨s, hs1, hs2, hs3⟩ := hbd.tiles.cover (Nat.zero_le j) hjl
    obtain ⟨i1, i2, i3⟩ := h5 s hs1 j t u hs2 hs3 hj1 hj3
    have htj := htok j x hj2
    have htext : tokText b.text t = tokText g.text x := by
      rw [forall₂_getElem?] at ht
      exact ht.2 j t x hj1 hj2
    have hkj : ∀ p ∈ ps, KnownFor lower dataset (tok j) p := hknown s hs1 j hs2 hs3
    have hdec : ∀ w, Decides ws w → ∃ p ∈ ps, ∃ ids w', Gold lower p (tok j) w ids ∧
        w.apply lower (tokText b.text t, t) ids = .ok w' ∧ (w.tagsPos = true → u.pos = w'.pos) ∧
        (w.tagsPos = false → u.lemma' = w'.lemma') := by
      intro w hd
      obtain ⟨p, hp1, tt, ht1, _, ht2, hg⟩ := hw w hd.mem
      obtain ⟨rows, ids, w', h6, h7, h8, h9, h10⟩ := i1 w hd
      rw [ht2, hrows s hs1 tt ht1] at h6
      injection h6 with h6
      subst h6
      have : ids = encOf lower float zero tok (seen tt) tt j := by
        rw [List.getElem?_map, List.getElem?_range' (by omega)] at h7
        simp only [Option.map_some, Option.some.injEq] at h7
        rw [← h7]
        congr 1
        omega
      subst this
      exact ⟨p, hp1, _, w', (hg j (hkj p hp1)).2, h8, h9, h10⟩
    rw [← htj]
    constructor
    · rintro ⟨p, hp1, hpt⟩
      obtain ⟨s', hs'⟩ : ∃ s', p.labelSpec = some s' := Option.ne_none_iff_exists'.1 (Provider.tags_spec hpt)
      obtain ⟨w, hw1, hw2⟩ := hw' p hp1 s' hs'
      obtain ⟨w0, _, hw3, hw4⟩ := exists_decides ⟨w, hw1, hw2.2 hpt⟩
      obtain ⟨p', _, ids, w', hg, ha, hpos, _⟩ := hdec w0 hw4
      obtain ⟨u', hu1, hu2⟩ := hg.pos hw3 (tokText b.text t, t)
      rw [ha] at hu1
      injection hu1 with hu1
      subst hu1
      rw [hpos hw3]
      exact hu2
    · intro hnone
      refine i2 (fun w hw1 => ?_)
      obtain ⟨p, hp1, tt, _, _, _, hg⟩ := hw w hw1
      have := (hg j (hkj p hp1)).2.tags
      cases hwt : w.tagsPos with
      | false => rfl
      | true => exact absurd (this.1 hwt) (hnone p hp1)
    · rintro ⟨p, hp1, hpl⟩
      obtain ⟨hsome, hnt⟩ := Provider.lemmaOf_spec hpl
      obtain ⟨s', hs'⟩ : ∃ s', p.labelSpec = some s' := Option.ne_none_iff_exists'.1 hsome
      obtain ⟨w, hw1, hw2⟩ := hw' p hp1 s' hs'
      have hwf : w.tagsPos = false := by
        cases hwt : w.tagsPos with
        | false => rfl
        | true => exact absurd (hw2.1 hwt) hnt
      obtain ⟨w0, _, hw3, hw4⟩ := exists_decides ⟨w, hw1, hwf⟩
      obtain ⟨p', hp', ids, w', hg, ha, _, hlem⟩ := hdec w0 hw4
      obtain ⟨u', hu1, hu2⟩ := hg.lemma' hw3 (tokText b.text t, t) (by rw [htj]; exact htext)
      rw [ha] at hu1
      injection hu1 with hu1
      subst hu1
      exact ⟨p', hp', by rw [hlem hw3]; exact hu2⟩
    · intro hnone
      refine i3 (fun w hw1 => ?_)
      obtain ⟨p, hp1, tt, _, _, _, hg⟩ := hw w hw1
      cases hwt : w.tagsPos with
      | true => rfl
      | false =>
        obtain ⟨u', _, hu2⟩ := (hg j (hkj p hp1)).2.lemma' hwt (tok j) rfl
        rw [hnone p hp1] at hu2
        cases hu2

/-- What makes the annotation of training tokens expressible by the labels of a provider: no features named like tags
(granular splitting of tags), rules and characters are not dropped as infrequent, and lemmas exist and are short
enough. -/
def TrainsOn (dataset : List Document) (x : Token) : Provider → Prop
  | .posDict _ s => s = .gran → ∀ p, some p ∈ posLabels dataset →
      "UPOS".toList ∉ p.feats.keys ∧ "XPOS".toList ∉ p.feats.keys
  | .lemmaRules _ _ threshold => threshold ≤ 0 ∧ x.lemma' ≠ none
  | .lemmaChars _ threshold maxLen segment => segment = charSegment ∧ threshold ≤ 1 ∧
      ∃ l, x.lemma' = some l ∧ l.length < maxLen
  | _ => True

/-- C124: the annotation of the training documents is expressible. -/
theorem C124_training (dataset : List Document) (g : Document) (hg : g ∈ dataset) (x : Token) (hx : x ∈ g.tokens) (p : Provider)
    (hp : TrainsOn dataset x p) : KnownFor lower dataset (tokText g.text x, x) p := by
  have hmem : (tokText g.text x, x) ∈ datasetTokens dataset := by
    unfold datasetTokens Document.textTokens
    exact List.mem_flatMap.2 ⟨g, hg, List.mem_map.2 ⟨x, hx, rfl⟩⟩
  cases p <;> try trivial
  case posDict lab s => exact ⟨List.mem_map.2 ⟨_, hmem, rfl⟩, hp⟩
  case lemmaDict lab => exact ⟨_, hmem, rfl⟩
  case lemmaRules f lab threshold =>
    obtain ⟨l, hl⟩ := Option.ne_none_iff_exists'.1 hp.2
    exact ⟨l, hl, _, hmem, l, hl, rfl, Or.inl hp.1⟩
  case lemmaChars lab threshold n segment =>
    obtain ⟨rfl, h1, l, hl, h2⟩ := hp
    refine ⟨rfl, l, hl, h2, fun c hc => ?_⟩
    have hcm : c ∈ (datasetTokens dataset).flatMap (fun t => t.2.lemma'.getD []) :=
      List.mem_flatMap.2 ⟨_, hmem, by simp [hl, hc]⟩
    have := List.count_pos_iff.2 hcm
    exact ⟨hcm, by omega⟩

end

/-! ### Examples -/

namespace Demo

def goldNoun : Pos := ⟨some "N".toList, none, Dict.empty⟩
def goldVerb : Pos := ⟨some "V".toList, none, Dict.empty⟩

/-- An annotated document, and the same document without annotation. -/
def goldDoc : Document :=
  { text := "a b".toList,
    tokens := [{ start := 0, stop := 1, pos := some goldNoun, lemma' := some "x".toList },
      { start := 2, stop := 3, pos := some goldVerb, lemma' := some "y".toList }],
    sentences := [{ start := 0, stop := 2 }] }
def blindDoc : Document :=
  { text := "a b".toList, tokens := [{ start := 0, stop := 1 }, { start := 2, stop := 3 }],
    sentences := [{ start := 0, stop := 2 }] }
def goldTok (k : Nat) : TextToken := goldDoc.textTokens.getD k ([], { start := 0, stop := 1 })
def goldProviders : List Provider := [.posDict "p".toList .joint, .lemmaDict "l".toList]

theorem gold_known (x : Token) (hx : x ∈ goldDoc.tokens) (p : Provider) (hp : p ∈ goldProviders) :
    KnownFor id [goldDoc] (tokText goldDoc.text x, x) p := by
  refine C124_training [goldDoc] goldDoc (by simp) x hx p ?_
  simp only [goldProviders, List.mem_cons, List.not_mem_nil, or_false] at hp
  rcases hp with rfl | rfl
  · intro h; cases h
  · trivial

theorem blind_built : Built blindDoc := ⟨blindDoc.text, blindDoc.tokens, blindDoc.sentences, false, by decide +kernel⟩

theorem gold_tok (k : Nat) (x : Token) (h : goldDoc.tokens[k]? = some x) :
    goldTok k = (tokText goldDoc.text x, x) := by
  simp [goldTok, Document.textTokens, h]

end Demo

/-- The annotated document is reproduced. -/
example : ∃ r i d', assemble id Demo.float 0 Demo.goldTok Demo.keepAll (fun _ => [Demo.goldDoc]) Demo.goldProviders = .ok r ∧
    assembleInterp id (fun _ => [Demo.goldDoc]) Demo.goldProviders = .ok i ∧
    tagDocument id i (fun _ s => r.labels (sentenceBatch s)) Demo.blindDoc = .ok d' ∧
    (d'.tokens[1]?).map Token.lemma' = some (some "y".toList) := by
  obtain ⟨r, hr⟩ : ∃ r, assemble id Demo.float 0 Demo.goldTok Demo.keepAll (fun _ => [Demo.goldDoc]) Demo.goldProviders = .ok r :=
    ⟨_, rfl⟩
  obtain ⟨i, hi⟩ := C124_builds _ _ _ _ _ _ _ r hr
  obtain ⟨d', h1, h2, h3⟩ := C124_oracle r hr i hi _ (.all _ _) (by decide) Demo.goldDoc Demo.blindDoc Demo.blind_built rfl
    (by decide +kernel) Demo.gold_tok Demo.gold_known (fun _ s => r.labels (sentenceBatch s)) (by
      intro s hs
      simp only [Demo.blindDoc, List.mem_singleton] at hs
      obtain ⟨D, hD, _⟩ := C124_labels r hr _ (.all _ _) (by decide) s (by
        intro j hj1 hj2 p hp
        subst hs
        have hj : j < Demo.goldDoc.tokens.length := hj2
        rw [Demo.gold_tok j _ (List.getElem?_eq_getElem hj)]
        exact Demo.gold_known _ (List.getElem_mem _) p hp)
      refine ⟨D, hD, ?_⟩
      intro D' hD'
      rw [hD] at hD'
      injection hD' with hD'
      subst hD'
      exact fun _ => rfl)
  refine ⟨r, i, d', hr, hi, h1, ?_⟩
  have hl := h2.tokens.length_eq
  have hlt : 1 < d'.tokens.length := by rw [← hl]; decide
  obtain ⟨p, hp, hpl⟩ := (h3 1 _ _ _ rfl rfl (List.getElem?_eq_getElem hlt)).lemma'
    ⟨.lemmaDict "l".toList, by simp [Demo.goldProviders], rfl⟩
  rw [List.getElem?_eq_getElem hlt]
  simp only [Demo.goldProviders, List.mem_cons, List.not_mem_nil, or_false] at hp
  rcases hp with rfl | rfl
  · cases hpl
  · simp only [Provider.lemmaOf, Option.some.injEq] at hpl
    simp [← hpl]

/-- C124: a lemma that does not occur in the training data is not reproduced, although its label is predicted. -/
theorem C124_unknown_refuted : ∃ r i d', assemble id Demo.float 0 (fun _ => Demo.ptok 1) Demo.keepAll (fun _ => [Demo.goldDoc])
      [.lemmaDict "l".toList] = .ok r ∧ assembleInterp id (fun _ => [Demo.goldDoc]) [.lemmaDict "l".toList] = .ok i ∧
    tagDocument id i (fun _ s => r.labels (sentenceBatch s))
      { text := "z".toList, tokens := [(Demo.ptok 1).2], sentences := [{ start := 0, stop := 1 }] } = .ok d' ∧
    (Demo.ptok 1).2.lemma' = some "q".toList ∧ d'.tokens.map Token.lemma' = [some "y".toList] :=
  ⟨_, _, _, rfl, rfl, rfl, rfl, by decide +kernel⟩

end Verif
