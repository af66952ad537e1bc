import Verif.Proofs.Interpreters2

/-! # Proofs about assembled interpreters: the labels of a sentence -/

namespace Verif

section
variable {F : Type} {lower : Str → Str} {float : Str → Res F} {zero : F} {tok : Nat → TextToken}
  {sp : Sparsify} {dataset : List Document} {seen : Seen} {ps : List Provider}

/-- The extractor of the labels of one word. -/
def wordX : List (BuiltX F) → Extractor
  | [y] => y.extract
  | ys => compX (ys.map BuiltX.extract)

theorem buildL_eq (lf : Nat → Res (BuiltX F)) (L : List (Nat × Nat)) :
    Builder.buildL lf sp (L.map (fun p => Builder.leaf p.1 p.2)) = mapM' (fun p => lf p.2) L := by
  induction L with
  | nil => rfl
  | cons q L ih =>
    rw [List.map_cons, Builder.buildL, ih, Builder.build, mapM']
    cases lf q.2 with
    | error e => rfl
    | ok i => cases mapM' (fun p => lf p.2) L <;> rfl

theorem buildSpec_eq {q : Nat × Nat} {s : LeafSpec} (h : labelAt ps q = some s) :
    buildSpec lower float zero tok seen Provider.labelSpec ps q.2 = s.build lower float zero tok (seen s) := by
  unfold buildSpec
  rw [show ps[q.2]?.bind Provider.labelSpec = some s from h]

theorem builds_forall {L : List (Nat × Nat)} {ss : List LeafSpec} (hL : L.map (labelAt ps) = ss.map some)
    {ys : List (BuiltX F)}
    (h : mapM' (fun q => buildSpec lower float zero tok seen Provider.labelSpec ps q.2) L = .ok ys) :
    List.Forall₂ (fun s y => s.build lower float zero tok (seen s) = .ok y) ss ys := by
  rw [mapM'_ok_iff] at h
  induction L generalizing ss ys with
  | nil =>
    have : ss = [] := by simpa using hL.symm
    subst this
    cases h
    exact .nil
  | cons q L ih =>
    cases ss with
    | nil => cases hL
    | cons s ss =>
      simp only [List.map_cons, List.cons.injEq] at hL
      cases h with
      | cons h1 h2 =>
        rw [buildSpec_eq hL.1] at h1
        exact .cons h1 (ih hL.2 h2)

/-- The assembled extractor of labels. -/
theorem labels_built {b : Builder} (hb : LabelShape (labelIds ps) b) {y : BuiltX F}
    (h : b.build (buildSpec lower float zero tok seen Provider.labelSpec ps) sp = .ok y) :
    (labelSpecs ps = [] ∧ y.extract = fun _ => .ok Dict.empty) ∨ ∃ ss ys, ss.Perm (labelSpecs ps) ∧ ss ≠ [] ∧
      List.Forall₂ (fun s y => s.build lower float zero tok (seen s) = .ok y) ss ys ∧
      y.extract = padX (iterX (iterX (wordX ys))) := by
  cases hb with
  | none h0 =>
    simp only [Builder.build, Except.ok.injEq] at h
    subst h
    have := labelIds_specs ps
    rw [h0] at this
    exact Or.inl ⟨by simpa using this.symm, rfl⟩
  | one q h0 =>
    simp only [wordLeaf, Builder.build] at h
    cases hq : buildSpec lower float zero tok seen Provider.labelSpec ps q.2 with
    | error e => rw [hq] at h; cases h
    | ok x =>
      rw [hq] at h
      simp only [Except.ok.injEq] at h
      subst h
      obtain ⟨ss, h1, h2⟩ := labelIds_perm (L := [q]) (by rw [h0])
      have h3 := builds_forall (lower := lower) (float := float) (zero := zero) (tok := tok) (seen := seen) h2
        (ys := [x]) (by simp only [mapM', hq])
      refine Or.inr ⟨ss, [x], h1, ?_, h3, rfl⟩
      rintro rfl
      cases h3
  | many L' h0 h1 =>
    simp only [Builder.build, buildL_eq] at h
    cases hq : mapM' (fun q => buildSpec lower float zero tok seen Provider.labelSpec ps q.2) L' with
    | error e => rw [hq] at h; cases h
    | ok ys =>
      rw [hq] at h
      simp only at h
      obtain ⟨ss, h2, h3⟩ := labelIds_perm h1
      have h4 := builds_forall h3 hq
      have hlen : 2 ≤ ys.length := by
        rw [← h4.length_eq]
        have := congrArg List.length h3
        simp only [List.length_map] at this
        omega
      match ys, hlen, h, h4 with
      | y1 :: y2 :: ys, _, h, h4 =>
        simp only [compBuilt, Except.ok.injEq] at h
        subst h
        refine Or.inr ⟨ss, _, h2, ?_, h4, rfl⟩
        rintro rfl
        cases h4

/-- The label of a word. -/
def LabelOf (lower : Str → Str) (float : Str → Res F) (zero : F) (tok : Nat → TextToken) (dataset : List Document)
    (s : LeafSpec) (h : Nat) (ids : List Int) : Prop :=
  ∀ y, s.build lower float zero tok dataset = .ok y → y.extract (.mk h []) = .ok (Dict.ofList [(s.name, idsFeat ids)])

theorem singles_disjoint {es : List (Str × Feat)} (hn : (es.map Prod.fst).Nodup) :
    DisjointKeys (es.map (fun e => Dict.ofList [e])) := by
  unfold DisjointKeys
  rw [List.pairwise_map]
  rw [List.Nodup, List.pairwise_map] at hn
  refine hn.imp ?_
  intro a b hab k hk hk'
  have h1 : k = a.1 := by
    have := Dict.get?_isSome.2 hk
    obtain ⟨v, hv⟩ := Option.isSome_iff_exists.1 this
    exact ((get?_single a.1 a.2 k v).1 hv).1
  have h2 : k = b.1 := by
    have := Dict.get?_isSome.2 hk'
    obtain ⟨v, hv⟩ := Option.isSome_iff_exists.1 this
    exact ((get?_single b.1 b.2 k v).1 hv).1
  exact hab (h1.symm.trans h2)

/-- The labels of a word. -/
theorem wordX_ok {ss : List LeafSpec} {ys : List (BuiltX F)} (hne : ss ≠ [])
    (hb : List.Forall₂ (fun s y => s.build lower float zero tok (seen s) = .ok y) ss ys)
    (hn : (ss.map LeafSpec.name).Nodup) {h : Nat} {enc : LeafSpec → List Int}
    (he : ∀ s ∈ ss, LabelOf lower float zero tok (seen s) s h (enc s)) :
    ∃ D, wordX ys (.mk h []) = .ok D ∧
      ∀ k v, D.get? k = some v ↔ ∃ s ∈ ss, s.name = k ∧ v = idsFeat (enc s) := by
  have hm : mapM' (fun x : Extractor => x (.mk h [])) (ys.map BuiltX.extract) =
      .ok (ss.map (fun s => Dict.ofList [(s.name, idsFeat (enc s))])) := by
    rw [mapM'_ok_iff, List.forall₂_map_left_iff, List.forall₂_map_right_iff]
    have : ∀ (ss : List LeafSpec) (ys : List (BuiltX F)),
        List.Forall₂ (fun s y => s.build lower float zero tok (seen s) = .ok y) ss ys →
        (∀ s ∈ ss, LabelOf lower float zero tok (seen s) s h (enc s)) →
        List.Forall₂ (fun (y : BuiltX F) s => y.extract (.mk h []) = .ok (Dict.ofList [(s.name, idsFeat (enc s))]))
          ys ss := by
      intro ss ys hf
      induction hf with
      | nil => intro _; exact .nil
      | cons h1 _ ih =>
        intro he
        exact .cons (he _ (by simp) _ h1) (ih (fun s hs => he s (by simp [hs])))
    exact this ss ys hb he
  have hdis : DisjointKeys (ss.map (fun s => Dict.ofList [(s.name, idsFeat (enc s))])) := by
    have := singles_disjoint (es := ss.map (fun s => (s.name, idsFeat (enc s))))
      (by simpa [Function.comp_def] using hn)
    simpa [Function.comp_def] using this
  have hget : ∀ (D : Features), D.entries = (ss.map (fun s => Dict.ofList [(s.name, idsFeat (enc s))])).flatMap
      (fun d => d.entries) →
      ∀ k v, D.get? k = some v ↔ ∃ s ∈ ss, s.name = k ∧ v = idsFeat (enc s) := by
    intro D hD k v
    rw [Dict.get?_mem, hD]
    simp only [List.mem_flatMap, List.mem_map, exists_exists_and_eq_and]
    constructor
    · rintro ⟨s, hs, hk⟩
      obtain ⟨rfl, rfl⟩ := (get?_single _ _ _ _).1 (Dict.get?_mem.2 hk)
      exact ⟨s, hs, rfl, rfl⟩
    · rintro ⟨s, hs, rfl, rfl⟩
      exact ⟨s, hs, Dict.get?_mem.1 ((get?_single _ _ _ _).2 ⟨rfl, rfl⟩)⟩
  have hcomp : ∃ D, compX (ys.map BuiltX.extract) (.mk h []) = .ok D ∧
      D.entries = (ss.map (fun s => Dict.ofList [(s.name, idsFeat (enc s))])).flatMap (fun d => d.entries) := by
    obtain ⟨r, hr, hre⟩ := mergeDicts_ok hdis
    exact ⟨r, compX_ok.2 ⟨_, hm, hdis, hre⟩, hre⟩
  match ys, hb, hm, hcomp with
  | [], hb, _, _ => cases hb; exact absurd rfl hne
  | [y], hb, hm, _ =>
    cases hb with
    | cons h1 h2 =>
      cases h2
      exact ⟨_, he _ (List.mem_singleton.2 rfl) y h1, hget _ (by simp)⟩
  | y1 :: y2 :: ys, _, _, hcomp =>
    obtain ⟨D, h1, h2⟩ := hcomp
    exact ⟨D, h1, hget D h2⟩

/-! ### Padding a rectangular value -/

theorem depthL_ints (l : List Int) : Feat.depthL (l.map Feat.int) = 0 := by
  induction l with
  | nil => rfl
  | cons x l ih => simp [Feat.depthL, Feat.depth, ih]

theorem depthL_rows (rows : List (List Int)) (hne : rows ≠ []) : Feat.depthL (rows.map idsFeat) = 1 := by
  induction rows with
  | nil => exact absurd rfl hne
  | cons r rows ih =>
    cases rows with
    | nil => simp [Feat.depthL, Feat.depth, idsFeat, depthL_ints]
    | cons r' rows =>
      have := ih (by simp)
      rw [List.map_cons, Feat.depthL, this]
      simp [Feat.depth, idsFeat, depthL_ints]

theorem maxLen_const {seq : List Feat} {m : Nat} (hne : seq ≠ []) (h : ∀ x ∈ seq, x.items.length = m) :
    maxLen seq = m := by
  unfold maxLen
  have key : ∀ (l : List Nat) (a : Nat), a ≤ m → (∀ x ∈ l, x = m) → l.foldl max a = if l = [] then a else m := by
    intro l
    induction l with
    | nil => intro a _ _; rfl
    | cons x l ih =>
      intro a ha hx
      have hx' := hx x (by simp)
      subst hx'
      rw [List.foldl_cons, max_eq_right ha, ih x le_rfl (fun y hy => hx y (by simp [hy]))]
      split <;> simp
  rw [key _ 0 (Nat.zero_le _) (by
    intro x hx
    obtain ⟨y, hy, rfl⟩ := List.mem_map.1 hx
    exact h y hy), if_neg (by simpa using hne)]

theorem regroup_flat (seq : List Feat) :
    regroup (seq.map (fun x => x.items.length)) (seq.flatMap Feat.items) = seq.map Feat.items := by
  induction seq with
  | nil => rfl
  | cons x seq ih => simp [regroup, ih]

/-- One step of padding a value whose elements have the same length and are not changed. -/
theorem pad_step {n m : Nat} {seq : List Feat} {pad : Feat} (hne : seq ≠ []) (hl : ∀ x ∈ seq, x.isList = true)
    (hm : ∀ x ∈ seq, x.items.length = m)
    (hp : padSequence n (seq.flatMap Feat.items) = .ok (pad, seq.flatMap Feat.items)) :
    padSequence (n + 1) seq = .ok (.list (List.replicate m pad), seq) := by
  rw [padSequence, if_neg, if_neg, hp]
  · simp only [maxLen_const hne hm, regroup_flat, Except.ok.injEq, Prod.mk.injEq, true_and]
    unfold extendAll
    rw [List.map_map]
    conv_rhs => rw [← List.map_id seq]
    refine List.map_congr_left (fun x hx => ?_)
    simp only [Function.comp_apply, hm x hx, Nat.sub_self, List.replicate_zero, List.append_nil, id]
    exact (Feat.isList_iff.1 (hl x hx)).symm
  · simpa using hl
  · obtain ⟨x, seq, rfl⟩ := List.exists_cons_of_ne_nil hne
    simp [hl x (by simp)]

theorem pad_sentence (rows : List (List Int)) (m : Nat) (hm : ∀ r ∈ rows, r.length = m) :
    padValue (.list [.list (rows.map idsFeat)]) = .ok (.list [.list (rows.map idsFeat)]) := by
  by_cases hne : rows = []
  · subst hne; rfl
  · have hd : Feat.depthL [Feat.list (rows.map idsFeat)] = 2 := by
      rw [Feat.depthL, Feat.depth, depthL_rows rows hne]; rfl
    have h0 : padSequence 1 ((rows.map idsFeat).flatMap Feat.items) =
        .ok (.int PADDING, (rows.map idsFeat).flatMap Feat.items) := by
      rw [padSequence, if_pos]
      rw [List.all_eq_true]
      intro x hx
      obtain ⟨r, hr, hx⟩ := List.mem_flatMap.1 hx
      obtain ⟨r', _, rfl⟩ := List.mem_map.1 hr
      obtain ⟨i, _, rfl⟩ := List.mem_map.1 (show x ∈ r'.map Feat.int from hx)
      rfl
    have h1 := pad_step (m := m) (seq := rows.map idsFeat) (by simpa using hne) (by
      intro x hx
      obtain ⟨r, _, rfl⟩ := List.mem_map.1 hx
      rfl) (by
      intro x hx
      obtain ⟨r, hr, rfl⟩ := List.mem_map.1 hx
      simp [idsFeat, Feat.items, hm r hr]) h0
    have h2 := pad_step (m := rows.length) (n := 2) (seq := [Feat.list (rows.map idsFeat)]) (by simp) (by
      simp [Feat.isList]) (by simp [Feat.items]) (by simpa [Feat.items] using h1)
    rw [padValue]
    simp only [hd, h2]

/-- The labels of a sentence. -/
theorem labels_sentence {ss : List LeafSpec} {ys : List (BuiltX F)} (hne : ss ≠ [])
    (hb : List.Forall₂ (fun s y => s.build lower float zero tok (seen s) = .ok y) ss ys)
    (hn : (ss.map LeafSpec.name).Nodup) {hs : List Nat} (hhs : hs ≠ []) {enc : LeafSpec → Nat → List Int}
    (he : ∀ s ∈ ss, ∀ h ∈ hs, LabelOf lower float zero tok (seen s) s h (enc s h))
    (hlen : ∀ s ∈ ss, ∃ m, ∀ h ∈ hs, (enc s h).length = m) :
    ∃ D, padX (iterX (iterX (wordX ys))) (.mk 0 [.mk 0 (hs.map (fun h => .mk h []))]) = .ok D ∧
      ∀ k v, D.get? k = some v ↔ ∃ s ∈ ss, s.name = k ∧ v = .list [.list ((hs.map (enc s)).map idsFeat)] := by
  have hw : ∃ ds : List Features, mapM' (wordX ys) (hs.map (fun h => Obj.mk h [])) = .ok ds ∧
      List.Forall₂ (fun h (D : Features) => ∀ k v, D.get? k = some v ↔ ∃ s ∈ ss, s.name = k ∧ v = idsFeat (enc s h))
        hs ds := by
    clear hhs hlen
    induction hs with
    | nil => exact ⟨[], rfl, .nil⟩
    | cons h hs ih =>
      obtain ⟨ds, h1, h2⟩ := ih (fun s hs' h' hh' => he s hs' h' (by simp [hh']))
      obtain ⟨D, h3, h4⟩ := wordX_ok hne hb hn (h := h) (enc := fun s => enc s h) (fun s hs' => he s hs' h (by simp))
      exact ⟨D :: ds, mapM'_cons_ok.2 ⟨D, ds, h3, h1, rfl⟩, .cons h4 h2⟩
  obtain ⟨ds, h1, h2⟩ := hw
  have hinner : iterX (wordX ys) (.mk 0 (hs.map (fun h => .mk h []))) = .ok (listFeatures (collect ds)) :=
    iterX_ok.2 ⟨ds, h1, rfl⟩
  have huniq : ∀ s ∈ ss, ∀ s' ∈ ss, s.name = s'.name → s = s' := by
    intro s hs s' hs' hnm
    exact List.inj_on_of_nodup_map hn hs hs' hnm
  have hin : ∀ k v, (listFeatures (collect ds)).get? k = some v ↔
      ∃ s ∈ ss, s.name = k ∧ v = .list ((hs.map (enc s)).map idsFeat) := by
    intro k v
    have hf : ∀ s ∈ ss, ds.filterMap (fun d => d.get? s.name) = (hs.map (enc s)).map idsFeat := by
      intro s hs'
      clear h1 hinner hhs he hlen
      induction h2 with
      | nil => rfl
      | @cons h D hs ds h3 _ ih =>
        rw [List.filterMap_cons, (h3 s.name (idsFeat (enc s h))).2 ⟨s, hs', rfl, rfl⟩]
        simp [ih]
    have hex : (∃ d ∈ ds, k ∈ d.keys) ↔ ∃ s ∈ ss, s.name = k := by
      constructor
      · rintro ⟨d, hd, hk⟩
        obtain ⟨v, hv⟩ := Option.isSome_iff_exists.1 (Dict.get?_isSome.2 hk)
        obtain ⟨h, _, h3⟩ := forall₂_mem_right h2 hd
        obtain ⟨s, hs', hk', _⟩ := (h3 k v).1 hv
        exact ⟨s, hs', hk'⟩
      · rintro ⟨s, hs', rfl⟩
        obtain ⟨h, hs, rfl⟩ := List.exists_cons_of_ne_nil hhs
        cases h2 with
        | @cons _ D _ ds h3 _ =>
          exact ⟨D, by simp, Dict.get?_isSome.1 (by rw [(h3 s.name _).2 ⟨s, hs', rfl, rfl⟩]; rfl)⟩
    rw [iterX_get]
    split
    · rename_i hc
      obtain ⟨s, hs', rfl⟩ := hex.1 hc
      rw [hf s hs']
      constructor
      · intro h; injection h with h; exact ⟨s, hs', rfl, h.symm⟩
      · rintro ⟨s', hs'', hnm, rfl⟩
        rw [huniq s' hs'' s hs' hnm]
    · rename_i hc
      simp only [reduceCtorEq, false_iff]
      rintro ⟨s, hs', hk, _⟩
      exact hc (hex.2 ⟨s, hs', hk⟩)
  have houter : iterX (iterX (wordX ys)) (.mk 0 [.mk 0 (hs.map (fun h => .mk h []))]) =
      .ok (listFeatures (collect [listFeatures (collect ds)])) := by
    refine iterX_ok.2 ⟨_, ?_, rfl⟩
    simp only [Obj.items, mapM', hinner]
  have hout : ∀ k v, (listFeatures (collect [listFeatures (collect ds)])).get? k = some v ↔
      ∃ s ∈ ss, s.name = k ∧ v = .list [.list ((hs.map (enc s)).map idsFeat)] := by
    intro k v
    rw [iterX_get]
    cases hk : (listFeatures (collect ds)).get? k with
    | none =>
      have : ¬ ∃ d ∈ [listFeatures (collect ds)], k ∈ d.keys := by
        rintro ⟨d, hd, hk'⟩
        rw [List.mem_singleton] at hd
        subst hd
        rw [← Dict.get?_isSome, hk] at hk'
        simp at hk'
      rw [if_neg this]
      simp only [reduceCtorEq, false_iff]
      rintro ⟨s, hs', rfl, _⟩
      rw [(hin s.name _).2 ⟨s, hs', rfl, rfl⟩] at hk
      cases hk
    | some u =>
      have : ∃ d ∈ [listFeatures (collect ds)], k ∈ d.keys :=
        ⟨_, List.mem_singleton.2 rfl, Dict.get?_isSome.1 (by rw [hk]; rfl)⟩
      rw [if_pos this]
      simp only [List.filterMap_cons, hk, List.filterMap_nil, Option.some.injEq]
      obtain ⟨s, hs', rfl, rfl⟩ := (hin k u).1 hk
      constructor
      · rintro rfl; exact ⟨s, hs', rfl, rfl⟩
      · rintro ⟨s', hs'', hnm, rfl⟩
        rw [huniq s' hs'' s hs' hnm]
  refine ⟨_, ?_, hout⟩
  rw [padX_eq]
  refine valX_ok.2 ⟨_, houter, List.forall₂_same.2 (fun e he' => ⟨rfl, ?_⟩)⟩
  obtain ⟨s, hs', _, hv⟩ := (hout e.1 e.2).1 (Dict.get?_mem.2 he')
  obtain ⟨m, hm⟩ := hlen s hs'
  rw [hv]
  refine pad_sentence _ m ?_
  intro r hr
  obtain ⟨h, hh, rfl⟩ := List.mem_map.1 hr
  exact hm h hh

end

end Verif
