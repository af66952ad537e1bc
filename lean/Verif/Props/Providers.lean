import Verif.Proofs.Providers5

/-!
# C119, C120: what the assembled extractors feed the network agrees with the announced shapes
-/

namespace Verif

section
variable {F : Type} (lower : Str → Str) (float : Str → Res F) (zero : F) (tok : Nat → TextToken)
  (sp : Sparsify) (seen : Seen) (ps : List Provider)

/-! ### C119 -/

/-- C119: every feature the assembled extractor yields for a batch belongs to one of the providers, and
agrees with the shape announced for it: every id, also after sparsification and padding, is a row of
the embedding; every mask has one flag per rule; the lengths are those of the sentences. -/
theorem C119_features (r : Assembled F) (h : assemble lower float zero tok sp seen ps = .ok r)
    (hsp : OnlySparsifies sp) (hnames : (featureNames ps).Nodup)
    (S : Dict Str Shape) (hS : r.shapes = .ok S)
    (batch : Obj) (D : Features) (hD : r.features batch = .ok D)
    (k : Str) (v : Feat) (hv : D.get? k = some v) :
    ∃ p ∈ ps, FeatureFits S batch k v p := by
  obtain ⟨f, l, x, x', hf, hl, hx, hx', rfl⟩ := assemble_ok.1 h
  obtain ⟨id, p, s, ws, y, hp, hs, hlv, hk, hy, hform⟩ :=
    assembled_origin (mk := fun id p => p.feature id) feature_mk hf hx hsp hnames hD hv
  have hmem : p ∈ ps := List.mem_of_getElem? hp
  have hsm : s ∈ leafSpecs ps :=
    List.mem_append_left _ (List.mem_filterMap.2 ⟨p, hmem, hs⟩)
  refine ⟨p, hmem, ?_⟩
  rw [feature_leaves, hs] at hlv
  simp only [List.cons.injEq, Prod.mk.injEq, and_true] at hlv
  subst hk
  have hids : ∀ n : Int, 2 ≤ n → (∀ o v, y.extract o = .ok (Dict.ofList [(s.name, v)]) → ScalarsFit n v) →
      IdsFit n v := fun n h2 hall =>
    form_scalars (P := fun x => ∃ i, x = .int i ∧ 0 ≤ i ∧ i < n)
      ⟨PADDING, rfl, by simp only [PADDING]; omega⟩ ⟨OOV, rfl, by simp only [OOV]; omega⟩
      (fun o v hv => hall o v hv) ws batch v hform
  cases p <;> simp only [Provider.featureSpec, reduceCtorEq, Option.some.injEq] at hs <;> subst hs
  case sentLength n =>
    refine ⟨rfl, ?_⟩
    subst hlv
    obtain ⟨u, ⟨ls, rfl, hall, hone⟩, hpad⟩ := hform
    have hone := hone (by simp)
    simp only [LeafSpec.build, Except.ok.injEq] at hy
    subst hy
    have e : ls.flatten = (batch.items.map (fun s => (s.items.length : Int))).map Feat.int := by
      clear hpad hids hsm hv hD
      generalize batch.items = os at hall
      clear * - hall hone
      revert hone
      induction hall with
      | nil => intro _; rfl
      | @cons o l os ls h1 h2 ih =>
        intro hone
        have hl1 := hone l (by simp)
        obtain ⟨a, rfl⟩ := List.length_eq_one_iff.1 hl1
        have := h1 a (by simp)
        simp only [Form, Except.ok.injEq] at this
        have := ofList_single_inj this
        rw [List.flatten_cons, ih (fun l hl => hone l (List.mem_cons_of_mem _ hl)), ← this]
        rfl
    rw [e, pad_flat] at hpad
    injection hpad with hpad
    rw [← hpad, List.map_map]
    rfl
  case wordEmb f init lines lc =>
    obtain ⟨n, w, h1, h2, h3⟩ := leaf_ids hy
    exact ⟨rfl, n, w, shape_of h hS hsm hy h1 ((get?_single ..).2 ⟨rfl, rfl⟩), hids n h2 h3⟩
  case subwordEmb f init lines seg =>
    obtain ⟨n, w, h1, h2, h3⟩ := leaf_ids hy
    exact ⟨rfl, n, w, shape_of h hS hsm hy h1 ((get?_single ..).2 ⟨rfl, rfl⟩), hids n h2 h3⟩
  case trainable f t lc =>
    obtain ⟨n, h1, h2, h3⟩ := leaf_ids hy
    exact ⟨rfl, n, shape_of h hS hsm hy h1 ((get?_single ..).2 ⟨rfl, rfl⟩), hids n h2 h3⟩
  case subwords f t seg =>
    obtain ⟨n, h1, h2, h3⟩ := leaf_ids hy
    exact ⟨rfl, n, shape_of h hS hsm hy h1 ((get?_single ..).2 ⟨rfl, rfl⟩), hids n h2 h3⟩
  case lemmaRules f lab t =>
    subst hlv
    obtain ⟨n, h1, h2⟩ := leaf_mask hy
    refine ⟨rfl, n, shape_of h hS hsm hy h1 ((get?_single ..).2 ⟨rfl, rfl⟩), ?_⟩
    have hvec := form_vectors (n := n) (P := fun _ y => (∃ b, y = .bool b) ∨ y = .int PADDING)
      (fun _ _ => Or.inr rfl) (fun s _ t _ x hx => by
        obtain ⟨l, rfl, hlen⟩ := h2 t x hx
        refine ⟨_, rfl, by simpa using hlen, ?_⟩
        intro j y hy
        rw [List.getElem?_map] at hy
        obtain ⟨b, _, rfl⟩ := Option.map_eq_some_iff.1 hy
        exact ⟨rfl, Or.inl ⟨b, rfl⟩⟩) hform
    intro a b x hx
    obtain ⟨l, rfl, hlen, hall⟩ := hvec a b x hx
    refine ⟨l, rfl, by omega, ?_⟩
    intro y hy
    obtain ⟨j, hj⟩ := List.getElem?_of_mem hy
    exact (hall j y hj).2

/-- Vectors of ids, as labels. -/
theorem vectors_labels {parts : List (Str × Nat)} {v : Feat}
    (h : Vectors parts.length (fun j y => ∃ i : Int, y = .int i ∧ 0 ≤ i ∧
      ∀ p, parts[j]? = some p → i < (p.2 : Int)) v) : LabelsFit parts v := by
  intro s w x hx
  obtain ⟨l, rfl, hlen, hall⟩ := h s w x hx
  clear hx h
  have : ∃ ids : List Int, l = ids.map Feat.int ∧
      List.Forall₂ (fun (i : Int) (p : Str × Nat) => 0 ≤ i ∧ i < p.2) ids parts := by
    induction l generalizing parts with
    | nil =>
      cases parts with
      | nil => exact ⟨[], rfl, .nil⟩
      | cons p ps => simp at hlen
    | cons y l ih =>
      cases parts with
      | nil => simp at hlen
      | cons p ps =>
        obtain ⟨_, i, rfl, h0, h1⟩ := hall 0 y (by simp)
        obtain ⟨ids, rfl, hf⟩ := ih (parts := ps) (by simpa using hlen)
          (fun j y hj => by simpa using hall (j + 1) y (by simpa using hj))
        exact ⟨i :: ids, rfl, .cons ⟨h0, h1 p (by simp)⟩ hf⟩
  obtain ⟨ids, rfl, hf⟩ := this
  exact ⟨ids, rfl, hf⟩

/-- Word-level labels fit if those of the leaf do. -/
theorem labels_fit {parts : List (Str × Nat)} (hpos : ∀ p ∈ parts, 0 < p.2)
    {Q : Obj → Feat → Prop} {batch : Obj} {v : Feat}
    (hQ : ∀ s ∈ batch.items, ∀ t ∈ s.items, ∀ x, Q t x → ∃ ids : List Int, x = idsFeat ids ∧
      List.Forall₂ (fun (i : Int) (p : Str × Nat) => 0 ≤ i ∧ i < p.2) ids parts)
    (h : Form Q [.padding, .iter, .iter] batch v) : LabelsFit parts v := by
  refine vectors_labels (form_vectors ?_ ?_ h)
  · intro j hj
    refine ⟨PADDING, rfl, by simp [PADDING], ?_⟩
    intro p hp
    have := hpos p (List.mem_of_getElem? hp)
    simp only [PADDING]
    omega
  · intro s hs t ht x hx
    obtain ⟨ids, rfl, hf⟩ := hQ s hs t ht x hx
    refine ⟨_, rfl, by rw [List.length_map]; exact hf.length_eq, ?_⟩
    intro j y hy
    rw [List.getElem?_map] at hy
    obtain ⟨i, hi, rfl⟩ := Option.map_eq_some_iff.1 hy
    obtain ⟨h1, h2⟩ := List.getElem?_eq_some_iff.1 hi
    have hj : j < parts.length := by rw [← hf.length_eq]; exact h1
    have := (List.forall₂_iff_get.1 hf).2 j h1 hj
    simp only [List.get_eq_getElem, h2] at this
    refine ⟨rfl, i, rfl, this.1, ?_⟩
    intro p hp
    obtain ⟨_, h4⟩ := List.getElem?_eq_some_iff.1 hp
    rw [← h4]
    exact this.2

/-- C119: every label the assembled extractor yields for a batch belongs to one of the providers and
agrees with the shape announced for it: one label per part, below the number of labels of the part
(ids of characters: rows of the embedding).  For the dictionary of lemmas this is missing if the
training data has one lemma only and the batch another one: the label 1 is then outside (see
`C119_refuted`). -/
theorem C119_labels_partial (r : Assembled F) (h : assemble lower float zero tok sp seen ps = .ok r)
    (dataset : List Document) (ho : seen.Orders ps dataset)
    (hsp : OnlySparsifies sp) (hnames : (labelNames ps).Nodup)
    (S : Dict Str Shape) (hS : r.shapes = .ok S)
    (batch : Obj) (D : Features) (hD : r.labels batch = .ok D)
    (k : Str) (v : Feat) (hv : D.get? k = some v) :
    ∃ p ∈ ps, LabelFits tok dataset S batch k v p := by
  obtain ⟨f, l, x, x', hf, hl, hx, hx', rfl⟩ := assemble_ok.1 h
  obtain ⟨id, p, s, ws, y, hp, hs, hlv, hk, hy, hform⟩ :=
    assembled_origin (mk := fun id p => p.label id) label_mk hl hx' hsp hnames hD hv
  have hmem : p ∈ ps := List.mem_of_getElem? hp
  have hsm : s ∈ leafSpecs ps :=
    List.mem_append_right _ (List.mem_filterMap.2 ⟨p, hmem, hs⟩)
  refine ⟨p, hmem, ?_⟩
  rw [label_leaves, hs] at hlv
  simp only [List.cons.injEq, Prod.mk.injEq, and_true] at hlv
  subst hk
  subst hlv
  cases p <;> simp only [Provider.labelSpec, reduceCtorEq, Option.some.injEq] at hs <;> subst hs
  case posDict lab splitting =>
    obtain ⟨parts, h1, h2, h3⟩ := leaf_pos hy
    exact ⟨rfl, parts, shape_of h hS hsm hy h1 ((get?_single ..).2 ⟨rfl, rfl⟩),
      labels_fit h2 (fun _ _ t _ x hx => h3 t x hx) hform⟩
  case lemmaRules f lab t =>
    obtain ⟨n, h1, h2, h3⟩ := leaf_rules hy
    refine ⟨rfl, n, shape_of h hS hsm hy h1 ((get?_single ..).2 ⟨rfl, rfl⟩),
      labels_fit (by simpa using h2) (fun _ _ t _ x hx => ?_) hform⟩
    obtain ⟨i, hi, rfl⟩ := h3 t x hx
    exact ⟨_, rfl, .cons ⟨by omega, by simpa using hi⟩ .nil⟩
  case lemmaDict lab =>
    obtain ⟨n, h1, h2, h3⟩ := leaf_lemmas hy
    refine ⟨rfl, n, shape_of h hS hsm hy h1 ((get?_single ..).2 ⟨rfl, rfl⟩), fun hcond =>
      labels_fit (by simpa using h2) (fun s hs t ht x hx => ?_) hform⟩
    obtain ⟨i, hi, rfl, hcase⟩ := h3 t x hx
    refine ⟨_, rfl, .cons ⟨hi, ?_⟩ .nil⟩
    rcases hcase with hlt | ⟨hn, _, hunk⟩
    · exact hlt
    · rcases hcond with h2 | hknown
      · omega
      · obtain ⟨t', ht', he⟩ := hknown s hs t ht
        exact absurd he (hunk t' ((datasetTokens_perm (ho _ hsm)).mem_iff.2 ht'))
  case lemmaChars lab t m seg =>
    obtain ⟨n, h1, h2, h3⟩ := leaf_ids hy
    exact ⟨rfl, n, shape_of h hS hsm hy h1 ((get?_single ..).2 ⟨rfl, rfl⟩),
      form_scalars (P := fun x => ∃ i, x = .int i ∧ 0 ≤ i ∧ i < n)
        ⟨PADDING, rfl, by simp only [PADDING]; omega⟩ ⟨OOV, rfl, by simp only [OOV]; omega⟩
        (fun o v hv => h3 o v hv) _ batch v hform⟩

/-- C119: sparsification at any rate, whatever the random numbers, only replaces values by `OOV`. -/
theorem C119_sparsifies (rate : Rat) (rnd : Obj → Str → Nat → Rat) :
    OnlySparsifies (fun o k f => (sparseRate (rnd o k) rate f 0).map Prod.fst) := by
  intro o k f f' h
  simp only at h
  obtain ⟨h1, h2⟩ := C42_sparse (rnd o k) rate f 0
  by_cases ho : f.HasOther
  · rw [h2 ho] at h
    simp [Except.map] at h
  · obtain ⟨g, k', hg, hs, _⟩ := h1 ho
    rw [hg] at h
    simp only [Except.map, Except.ok.injEq] at h
    subst h
    exact hs

/-! ### C120 -/

/-- C120: assembling succeeds exactly if there is a provider and the leaf builder of every feature and
label can be built from the training data. -/
theorem C120_builds :
    (∃ r, assemble (F := F) lower float zero tok sp seen ps = .ok r) ↔
      ps ≠ [] ∧ ∀ s ∈ leafSpecs ps, ∃ y, s.build (F := F) lower float zero tok (seen s) = .ok y := by
  constructor
  · rintro ⟨r, h⟩
    obtain ⟨f, l, x, x', hf, hl, hx, hx', rfl⟩ := assemble_ok.1 h
    refine ⟨?_, ?_⟩
    · rintro rfl
      simp [C39_none] at hf
    · intro s hs
      rcases List.mem_append.1 hs with hs | hs
      · obtain ⟨p, hp, hps⟩ := List.mem_filterMap.1 hs
        obtain ⟨i, hi⟩ := List.getElem?_of_mem hp
        obtain ⟨ws, hm⟩ := leaves_merged (mk := fun id p => p.feature id) feature_mk hf hi hps
        obtain ⟨y, hy⟩ := build_leaves f x hx ws s.ty i hm
        obtain ⟨p', s', hp', hs', hyb⟩ := buildSpec_ok.1 hy
        rw [hi] at hp'
        injection hp' with hp'
        subst hp'
        rw [hps] at hs'
        injection hs' with hs'
        subst hs'
        exact ⟨y, hyb⟩
      · obtain ⟨p, hp, hps⟩ := List.mem_filterMap.1 hs
        obtain ⟨i, hi⟩ := List.getElem?_of_mem hp
        obtain ⟨ws, hm⟩ := leaves_merged (mk := fun id p => p.label id) label_mk hl hi hps
        obtain ⟨y, hy⟩ := build_leaves l x' hx' ws s.ty i hm
        obtain ⟨p', s', hp', hs', hyb⟩ := buildSpec_ok.1 hy
        rw [hi] at hp'
        injection hp' with hp'
        subst hp'
        rw [hps] at hs'
        injection hs' with hs'
        subst hs'
        exact ⟨y, hyb⟩
  · rintro ⟨hne, hall⟩
    have hz : ps.zipIdx ≠ [] := by simpa using hne
    obtain ⟨f, hf, hfw⟩ := C39_total (ps.zipIdx.map (fun p => Provider.feature p.2 p.1)) (by simpa using hne)
      (by
        intro b hb
        obtain ⟨⟨p, i⟩, _, rfl⟩ := List.mem_map.1 hb
        cases p <;> simp [Provider.feature, wrapWord, wrapSentence, Builder.WellFormed])
    obtain ⟨l, hl, hlw⟩ := C39_total (ps.zipIdx.map (fun p => Provider.label p.2 p.1)) (by simpa using hne)
      (by
        intro b hb
        obtain ⟨⟨p, i⟩, _, rfl⟩ := List.mem_map.1 hb
        cases p <;> simp [Provider.label, wrapWord, wrapSentence, Builder.WellFormed])
    obtain ⟨x, hx⟩ := build_total (lf := buildSpec (F := F) lower float zero tok seen Provider.featureSpec ps)
      (sp := sp) f hfw (by
        intro ws ty id hm
        obtain ⟨p, s, hp, hs, _⟩ := merged_leaves (mk := fun id p => p.feature id) feature_mk hf hm
        obtain ⟨y, hy⟩ := hall s (List.mem_append_left _
          (List.mem_filterMap.2 ⟨p, List.mem_of_getElem? hp, hs⟩))
        exact ⟨y, buildSpec_ok.2 ⟨p, s, hp, hs, hy⟩⟩)
    obtain ⟨x', hx'⟩ := build_total (lf := buildSpec (F := F) lower float zero tok seen Provider.labelSpec ps)
      (sp := sp) l hlw (by
        intro ws ty id hm
        obtain ⟨p, s, hp, hs, _⟩ := merged_leaves (mk := fun id p => p.label id) label_mk hl hm
        obtain ⟨y, hy⟩ := hall s (List.mem_append_right _
          (List.mem_filterMap.2 ⟨p, List.mem_of_getElem? hp, hs⟩))
        exact ⟨y, buildSpec_ok.2 ⟨p, s, hp, hs, hy⟩⟩)
    exact ⟨_, assemble_ok.2 ⟨f, l, x, x', hf, hl, hx, hx', rfl⟩⟩

/-- C120: `shapes()` of the assembled initializer gives every name announced by a provider exactly
once; if two features or labels announce the same name it is a `ValueError` -- only when it is called,
not when the extractors are assembled. -/
theorem C120_shapes (r : Assembled F) (h : assemble lower float zero tok sp seen ps = .ok r) :
    (((leafSpecs ps).filterMap LeafSpec.announces).Nodup → ∃ S, r.shapes = .ok S ∧
      ∀ k, k ∈ S.keys ↔ k ∈ (leafSpecs ps).filterMap LeafSpec.announces) ∧
    (¬ ((leafSpecs ps).filterMap LeafSpec.announces).Nodup → r.shapes = .error .value) := by
  obtain ⟨f, l, x, x', hf, hl, hx, hx', rfl⟩ := assemble_ok.1 h
  obtain ⟨ds, h1, h2⟩ := assembled_merged (shapesPart (F := F)) hf hl hx hx'
    (fun s _ y hy => (leaf_shapes hy).imp (fun d h => h.1))
  have hkeys : List.Forall₂ (fun (s : LeafSpec) (d : Dict Str Shape) =>
      ∀ k, k ∈ d.keys ↔ s.announces = some k) (leafSpecs ps) ds := by
    refine h1.imp ?_
    rintro s d ⟨y, hy, hd⟩
    obtain ⟨d', hd', hk⟩ := leaf_shapes hy
    rw [show shapesPart.get y = .ok d' from hd'] at hd
    injection hd with hd
    subst hd
    exact hk
  refine ⟨fun hn => ?_, fun hn => h2.2 (fun hd => hn ((disjoint_iff_nodup hkeys).1 hd))⟩
  obtain ⟨S, hS, hu⟩ := h2.1 ((disjoint_iff_nodup hkeys).2 hn)
  refine ⟨S, hS, fun k => (hu.keys k).trans ?_⟩
  rw [List.mem_filterMap]
  constructor
  · rintro ⟨d, hd, hk⟩
    obtain ⟨s, hs, hsd⟩ := forall₂_mem_right hkeys hd
    exact ⟨s, hs, (hsd k).1 hk⟩
  · rintro ⟨s, hs, hk⟩
    obtain ⟨d, hd, hsd⟩ := forall₂_mem_left hkeys hs
    exact ⟨d, hd, (hsd k).2 hk⟩

theorem leaf_initial {s : LeafSpec} {y : BuiltX F}
    (dataset : List Document) (h : s.build lower float zero tok dataset = .ok y) :
    (s.pretrained = none → y.initial = .ok Dict.empty) ∧
    ∀ init lines, s.pretrained = some (init, lines) →
      (lines = [] → y.initial = .error .type) ∧
      (lines ≠ [] → ∃ rows n w, y.initial = .ok (Dict.ofList [(init, rows)]) ∧
        y.shapes = .ok (Dict.ofList [(init, .dims [some n, some w])]) ∧
        (rows.map Prod.fst).Nodup ∧
        ∀ row ∈ rows, ∃ i, row.1 = some i ∧ 0 ≤ i ∧ i < n ∧ row.2.length = w.toNat) := by
  have key : ∀ (base : Int) (lines : List Str) (st : EmbState F) (x : Extractor) (init : Str),
      2 ≤ base → readEmbeddings float lines = .ok st → y = embInit zero base st x init →
      (lines = [] → y.initial = .error .type) ∧
      (lines ≠ [] → ∃ rows n w, y.initial = .ok (Dict.ofList [(init, rows)]) ∧
        y.shapes = .ok (Dict.ofList [(init, .dims [some n, some w])]) ∧
        (rows.map Prod.fst).Nodup ∧
        ∀ row ∈ rows, ∃ i, row.1 = some i ∧ 0 ≤ i ∧ i < n ∧ row.2.length = w.toNat) := by
    rintro base lines st x init hb hst rfl
    obtain ⟨h1, h2⟩ := C70_initial_values (float := float) zero base lines st hst
    refine ⟨fun he => by simp [embInit, h1 he], fun hne => ?_⟩
    obtain ⟨w, rows, hw, hr, hids, hlen, _⟩ := h2 hne
    have hn : (embeddingIds base st.vecs).entries.length = st.vecs.entries.length := by
      unfold embeddingIds
      rw [enumerate_entries (ws := st.vecs.keys) st.vecs.nodup]
      simp [Dict.keys]
    refine ⟨rows, _, w, by simp [embInit, hr], by simp only [embInit, hw]; rfl, ?_, ?_⟩
    · rw [hids, List.nodup_cons]
      refine ⟨?_, ?_⟩
      · intro hm
        obtain ⟨i, _, hi⟩ := List.mem_map.1 hm
        injection hi with hi
        omega
      · refine List.Nodup.map ?_ List.nodup_range
        intro a b hab
        injection hab with hab
        omega
    · intro row hrow
      have hm : row.1 ∈ rows.map Prod.fst := List.mem_map.2 ⟨row, hrow, rfl⟩
      rw [hids] at hm
      have hl := hlen row hrow
      rcases List.mem_cons.1 hm with hm | hm
      · exact ⟨0, hm, by omega, by omega, hl⟩
      · obtain ⟨i, hi, he⟩ := List.mem_map.1 hm
        rw [List.mem_range] at hi
        exact ⟨base + i, he.symm, by omega, by omega, hl⟩
  cases s <;> simp only [LeafSpec.build] at h <;> simp only [LeafSpec.pretrained]
  case sentLength | trainable | subwords =>
    injection h with h
    subst h
    exact ⟨fun _ => rfl, by simp⟩
  case wordEmb n init lines lc =>
    split at h
    · simp at h
    · rename_i st hst
      injection h with h
      refine ⟨by simp, ?_⟩
      intro i l e
      injection e with e
      injection e with e1 e2
      subst e1 e2
      exact key 2 lines st _ init (by omega) hst h.symm
  case subwordEmb n init lines seg =>
    split at h
    · simp at h
    · rename_i st hst
      injection h with h
      refine ⟨by simp, ?_⟩
      intro i l e
      injection e with e
      injection e with e1 e2
      subst e1 e2
      exact key 4 lines st _ init (by omega) hst h.symm
  case posDict =>
    split at h
    · simp at h
    · split at h
      · simp at h
      · injection h with h
        subst h
        exact ⟨fun _ => rfl, by simp⟩
  all_goals
    split at h
    · simp at h
    · injection h with h
      subst h
      exact ⟨fun _ => rfl, by simp⟩

/-- C120: the initial values: if no file of embeddings is empty, `initial_values()` gives, for exactly
the variables of the pretrained embeddings, rows that agree with the announced shape: every row is
named by its own index below the announced number of rows and has the announced width.  With an empty
file there are no initial values at all. -/
theorem C120_initial (r : Assembled F) (h : assemble lower float zero tok sp seen ps = .ok r)
    (S : Dict Str Shape) (hS : r.shapes = .ok S) :
    ((∃ s ∈ leafSpecs ps, ∃ init, s.pretrained = some (init, [])) → ∃ e, r.initial = .error e) ∧
    ((∀ s ∈ leafSpecs ps, ∀ init, s.pretrained ≠ some (init, [])) → ∃ I, r.initial = .ok I ∧
      (∀ k, k ∈ I.keys ↔ ∃ s ∈ leafSpecs ps, ∃ lines, s.pretrained = some (k, lines)) ∧
      ∀ k rows, I.get? k = some rows → ∃ n w, S.get? k = some (.dims [some n, some w]) ∧
        (rows.map Prod.fst).Nodup ∧
        ∀ row ∈ rows, ∃ i, row.1 = some i ∧ 0 ≤ i ∧ i < n ∧ row.2.length = w.toNat) := by
  have h' := h
  obtain ⟨f, l, x, x', hf, hl, hx, hx', rfl⟩ := assemble_ok.1 h
  constructor
  · rintro ⟨s, hs, init, hpre⟩
    cases hI : mergeInit [x.initial, x'.initial] with
    | error e => exact ⟨e, rfl⟩
    | ok I =>
      exfalso
      unfold mergeInit at hI
      split at hI
      · simp at hI
      · rename_i ds hds
        rw [mapM'_ok_iff] at hds
        obtain ⟨d1, d2, h1, h2⟩ : ∃ d1 d2, x.initial = .ok d1 ∧ x'.initial = .ok d2 := by
          cases hds with
          | cons h1 hds =>
            cases hds with
            | cons h2 _ => exact ⟨_, _, h1, h2⟩
        have bad : ∀ y, s.build lower float zero tok (seen s) = .ok y → ∀ d, y.initial ≠ .ok d := by
          intro y hy d hd
          rw [((leaf_initial lower float zero tok (seen _) hy).2 init [] hpre).1 rfl] at hd
          simp at hd
        rcases List.mem_append.1 hs with hs | hs
        · obtain ⟨p, hp, hps⟩ := List.mem_filterMap.1 hs
          obtain ⟨i, hi⟩ := List.getElem?_of_mem hp
          obtain ⟨ws, hm⟩ := leaves_merged (mk := fun id p => p.feature id) feature_mk hf hi hps
          obtain ⟨y, hy⟩ := build_leaves f x hx ws s.ty i hm
          obtain ⟨d, hd⟩ := build_init_ok initialPart f x hx d1 h1 ws s.ty i hm y hy
          obtain ⟨p', s', hp', hs', hyb⟩ := buildSpec_ok.1 hy
          rw [hi] at hp'
          injection hp' with hp'
          subst hp'
          rw [hps] at hs'
          injection hs' with hs'
          subst hs'
          exact bad y hyb d hd
        · obtain ⟨p, hp, hps⟩ := List.mem_filterMap.1 hs
          obtain ⟨i, hi⟩ := List.getElem?_of_mem hp
          obtain ⟨ws, hm⟩ := leaves_merged (mk := fun id p => p.label id) label_mk hl hi hps
          obtain ⟨y, hy⟩ := build_leaves l x' hx' ws s.ty i hm
          obtain ⟨d, hd⟩ := build_init_ok initialPart l x' hx' d2 h2 ws s.ty i hm y hy
          obtain ⟨p', s', hp', hs', hyb⟩ := buildSpec_ok.1 hy
          rw [hi] at hp'
          injection hp' with hp'
          subst hp'
          rw [hps] at hs'
          injection hs' with hs'
          subst hs'
          exact bad y hyb d hd
  · intro hne
    have hleaf : ∀ s ∈ leafSpecs ps, ∀ y, s.build lower float zero tok (seen s) = .ok y →
        ∃ d, y.initial = .ok d ∧ ∀ k rows, d.get? k = some rows →
          (∃ lines, s.pretrained = some (k, lines)) ∧
          ∃ n w, S.get? k = some (.dims [some n, some w]) ∧ (rows.map Prod.fst).Nodup ∧
            ∀ row ∈ rows, ∃ i, row.1 = some i ∧ 0 ≤ i ∧ i < n ∧ row.2.length = w.toNat := by
      intro s hs y hy
      obtain ⟨h1, h2⟩ := leaf_initial lower float zero tok (seen _) hy
      cases hp : s.pretrained with
      | none =>
        refine ⟨_, h1 hp, ?_⟩
        intro k rows hk
        simp [Dict.get?, Dict.empty, assocGet] at hk
      | some q =>
        obtain ⟨init, lines⟩ := q
        obtain ⟨rows, n, w, hi, hsh, hnd, hrows⟩ := (h2 init lines hp).2 (by
          rintro rfl
          exact hne s hs init hp)
        refine ⟨_, hi, ?_⟩
        intro k rows' hk
        obtain ⟨rfl, rfl⟩ := (get?_single ..).1 hk
        exact ⟨⟨lines, rfl⟩, n, w, shape_of h hS hs hy hsh ((get?_single ..).2 ⟨rfl, rfl⟩), hnd, hrows⟩
    have hkeys : ∀ s ∈ leafSpecs ps, ∀ y, s.build lower float zero tok (seen s) = .ok y →
        ∀ d, y.initial = .ok d → ∀ k, k ∈ d.keys ↔ ∃ lines, s.pretrained = some (k, lines) := by
      intro s hs y hy d hd k
      obtain ⟨h1, h2⟩ := leaf_initial lower float zero tok (seen _) hy
      constructor
      · intro hk
        obtain ⟨d', hd', hall⟩ := hleaf s hs y hy
        rw [hd] at hd'
        injection hd' with hd'
        subst hd'
        obtain ⟨rows, hrows⟩ := Option.isSome_iff_exists.1 (Dict.get?_isSome.2 hk)
        exact (hall k rows hrows).1
      · rintro ⟨lines, hp⟩
        obtain ⟨rows, n, w, hi, _⟩ := (h2 k lines hp).2 (by
          rintro rfl
          exact hne s hs k hp)
        rw [hd] at hi
        injection hi with hi
        subst hi
        exact Dict.get?_isSome.1 (by rw [(get?_single k rows k rows).2 ⟨rfl, rfl⟩]; rfl)
    obtain ⟨ds, h1, h2⟩ := assembled_merged (initialPart (F := F)) hf hl hx hx'
      (fun s hs y hy => (hleaf s hs y hy).imp (fun d h => h.1))
    have hmem : List.Forall₂ (fun s d => s ∈ leafSpecs ps ∧
        ∃ y, s.build lower float zero tok (seen s) = .ok y ∧ y.initial = .ok d) (leafSpecs ps) ds :=
      (List.forall₂_and_left (p := fun s => s ∈ leafSpecs ps) _ _).2 ⟨fun s hs => hs, h1⟩
    have hkf : List.Forall₂ (fun (s : LeafSpec) (d : Dict Str (InitRows F)) =>
        ∀ k, k ∈ d.keys ↔ s.pretrained.map Prod.fst = some k) (leafSpecs ps) ds := by
      refine hmem.imp ?_
      rintro s d ⟨hs, y, hy, hd⟩ k
      rw [hkeys s hs y hy d hd k, Option.map_eq_some_iff]
      constructor
      · rintro ⟨lines, hp⟩
        exact ⟨_, hp, rfl⟩
      · rintro ⟨⟨_, lines⟩, hp, rfl⟩
        exact ⟨lines, hp⟩
    have hnd : ((leafSpecs ps).filterMap LeafSpec.announces).Nodup := by
      by_contra hc
      have := (C120_shapes lower float zero tok sp seen ps _ h').2 hc
      rw [hS] at this
      simp at this
    have hdis : DisjointKeys ds := by
      rw [disjoint_iff_nodup hkf]
      have hsub : ∀ L : List LeafSpec, (L.filterMap (fun s => s.pretrained.map Prod.fst)).Sublist
          (L.filterMap LeafSpec.announces) := by
        intro L
        induction L with
        | nil => exact .slnil
        | cons s L ih =>
          cases s <;> simp only [List.filterMap_cons, LeafSpec.pretrained, LeafSpec.announces,
            Option.map_some, Option.map_none] <;>
            first
            | exact ih
            | exact ih.cons_cons _
            | exact ih.cons _
      exact (hsub _).nodup hnd
    obtain ⟨I, hI, hu⟩ := h2.1 hdis
    refine ⟨I, hI, ?_, ?_⟩
    · intro k
      rw [hu.keys k]
      constructor
      · rintro ⟨d, hd, hk⟩
        obtain ⟨s, hs, hsl, y, hy, hyd⟩ := forall₂_mem_right hmem hd
        exact ⟨s, hs, (hkeys s hs y hy d hyd k).1 hk⟩
      · rintro ⟨s, hs, hk⟩
        obtain ⟨d, hd, _, y, hy, hyd⟩ := forall₂_mem_left hmem hs
        exact ⟨d, hd, (hkeys s hs y hy d hyd k).2 hk⟩
    · intro k rows hk
      obtain ⟨d, hd, hdk⟩ := (hu k rows).1 hk
      obtain ⟨s, hs, hsl, y, hy, hyd⟩ := forall₂_mem_right hmem hd
      obtain ⟨d', hd', hall⟩ := hleaf s hs y hy
      rw [hyd] at hd'
      injection hd' with hd'
      subst hd'
      exact (hall k rows hdk).2

end


/-! ### Examples -/

namespace Demo

/-- Training data with one word; a batch has another one as well. -/
def oneTok : TextToken := ("ab".toList, { start := 0, stop := 2, lemma' := some "a".toList })
def oneDoc : Document :=
  { text := "ab".toList, tokens := [oneTok.2], sentences := [{ start := 0, stop := 1 }] }
def ptok (i : Nat) : TextToken :=
  if i = 0 then oneTok else ("z".toList, { start := 0, stop := 1, lemma' := some "q".toList })
def pbatch : Obj := .mk 0 [.mk 0 [.mk 0 [], .mk 1 []], .mk 1 [.mk 0 []]]
def keepAll : Sparsify := fun _ _ f => .ok f

theorem keepAll_ok : OnlySparsifies keepAll := by
  intro o k f f' h p
  injection h with h
  subst h
  exact ⟨fun x hx _ => ⟨x, hx, ‹_›, Or.inl rfl⟩, fun l hl => ⟨l, hl, rfl⟩, fun hn => hn⟩

def providers : List Provider :=
  [.sentLength "n".toList, .lemmaRules "m".toList "r".toList 0]

end Demo

/-- C119 fails in full: with a dictionary of lemmas built from training data with a single lemma, the
announced number of labels is 1, and another lemma gets the label 1. -/
theorem C119_refuted : ¬ (∀ (F : Type) (lower : Str → Str) (float : Str → Res F) (zero : F)
    (tok : Nat → TextToken) (sp : Sparsify) (seen : Seen) (ps : List Provider)
    (r : Assembled F), assemble lower float zero tok sp seen ps = .ok r → OnlySparsifies sp →
    (labelNames ps).Nodup → ∀ (S : Dict Str Shape), r.shapes = .ok S → ∀ (batch : Obj) (D : Features),
    r.labels batch = .ok D → ∀ k v parts, D.get? k = some v → S.get? k = some (.parts parts) →
    LabelsFit parts v) := by
  intro h
  have := h Int id Demo.float 0 Demo.ptok Demo.keepAll (fun _ => [Demo.oneDoc]) [.lemmaDict "l".toList] _ rfl
    Demo.keepAll_ok (by decide) _ rfl Demo.pbatch _ rfl "l".toList
    (.list [.list [.list [.int 0], .list [.int 1]], .list [.list [.int 0], .list [.int 0]]])
    [("LEMMA".toList, 1)] rfl (by decide +kernel)
  obtain ⟨ids, he, hf⟩ := this 0 1 (.list [.int 1]) rfl
  cases hf with
  | cons h1 h2 =>
    cases h2
    simp at he
    omega

example : ∃ r S D, assemble id Demo.float 0 Demo.ptok Demo.keepAll (fun _ => [Demo.oneDoc]) Demo.providers = .ok r ∧
    (featureNames Demo.providers).Nodup ∧ r.shapes = .ok S ∧
    S.get? "m".toList = some (.dims [some 1]) ∧ r.features Demo.pbatch = .ok D ∧
    D.get? "n".toList = some (.list [.int 2, .int 1]) ∧
    D.get? "m".toList = some (.list [.list [.list [.bool true], .list [.bool false]],
      .list [.list [.bool true], .list [.int 0]]]) := by
  refine ⟨_, _, _, rfl, by decide, rfl, ?_, rfl, ?_, ?_⟩
  · decide +kernel
  · rfl
  · rfl

/-- The initializer of a file of embeddings with one word. -/
def Demo.embLeaf : Res (BuiltX Int) :=
  (LeafSpec.wordEmb "w".toList "W".toList ["z 1 2".toList] false).build id Demo.float 0 Demo.ptok
    [Demo.oneDoc]

example : (match Demo.embLeaf with | .ok y => y.shapes | .error e => .error e) =
    .ok (Dict.ofList [("W".toList, .dims [some 3, some 2])]) := by decide +kernel
example : (match Demo.embLeaf with | .ok y => y.initial | .error e => .error e) =
    .ok (Dict.ofList [("W".toList, [(some 0, [0, 0]), (some 2, [1, 2])])]) := by decide +kernel

example : ∃ r S, assemble id Demo.float 0 Demo.ptok Demo.keepAll (fun _ => [Demo.oneDoc])
      [.wordEmb "w".toList "W".toList ["z 1 2".toList] false] = .ok r ∧ r.shapes = .ok S := by
  obtain ⟨r, hr⟩ := (C120_builds id Demo.float 0 Demo.ptok Demo.keepAll (fun _ => [Demo.oneDoc])
    [.wordEmb "w".toList "W".toList ["z 1 2".toList] false]).2 ⟨by simp, by
      intro s hs
      simp only [leafSpecs, List.filterMap_cons, Provider.featureSpec, Provider.labelSpec,
        List.filterMap_nil, List.append_nil, List.mem_singleton] at hs
      subst hs
      cases h : Demo.embLeaf with
      | ok y => exact ⟨y, h⟩
      | error e =>
        have : (match Demo.embLeaf with | .ok _ => true | .error _ => false) = true := by
          decide +kernel
        rw [h] at this
        simp at this⟩
  obtain ⟨S, hS, _⟩ := (C120_shapes _ _ _ _ _ _ _ r hr).1 (by decide)
  exact ⟨r, S, hr, hS⟩

-- an empty file of embeddings: no initial values; the same name twice: no shapes
example : ∃ r, assemble id Demo.float 0 Demo.ptok Demo.keepAll (fun _ => [Demo.oneDoc])
      [.wordEmb "w".toList "W".toList [] false] = .ok r ∧ r.initial = .error .type :=
  ⟨_, rfl, rfl⟩
example : ∃ r, assemble id Demo.float 0 Demo.ptok Demo.keepAll (fun _ => [Demo.oneDoc])
      [.lemmaRules "x".toList "x".toList 0] = .ok r ∧ r.shapes = .error .value :=
  ⟨_, rfl, rfl⟩

end Verif
