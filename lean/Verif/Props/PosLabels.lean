import Verif.Proofs.PosTable

/-! # TagPart-of-speech labels: C45 -/

namespace Verif

theorem split_congr {sp : Splitter} {p q : Option Pos} (h : Token.optPosEq q p = true)
    {ps : Dict Str TagPart} (hp : sp.split p = .ok ps) :
    ∃ qs, sp.split q = .ok qs ∧ ∀ k v, ps.get? k = some v →
      ∃ w, qs.get? k = some w ∧ TagPart.eq w v = true := by
  have hrefl : ∀ k v, ps.get? k = some v → ∃ w, ps.get? k = some w ∧ TagPart.eq w v = true :=
    fun k v hv => ⟨v, hv, partEq_rel.refl v⟩
  cases sp with
  | joint =>
    simp only [Splitter.split, Except.ok.injEq] at hp
    subst hp
    refine ⟨_, rfl, ?_⟩
    intro k v hv
    have hm := ofList_mem_of_get? _ _ _ hv
    simp only [List.mem_singleton, Prod.mk.injEq] at hm
    obtain ⟨rfl, rfl⟩ := hm
    exact ⟨.pos q, by rw [Dict.get?_mem, Dict.ofList_entries _ (by simp)]; simp, h⟩
  | xf =>
    cases p with
    | none => simp [Splitter.split] at hp
    | some p =>
      cases q with
      | none => simp [Token.optPosEq] at h
      | some q =>
        obtain ⟨h1, h2, h3⟩ := Pos.pyEq_iff.1 h
        have h4 : dict2repr q.feats = dict2repr p.feats := sortedItems_eq_iff.2 h3
        simp only [Splitter.split, Except.ok.injEq] at hp ⊢
        exact ⟨ps, by rw [h1, h2, h4, hp], hrefl⟩
  | uxf =>
    cases p with
    | none => simp [Splitter.split] at hp
    | some p =>
      cases q with
      | none => simp [Token.optPosEq] at h
      | some q =>
        obtain ⟨h1, h2, h3⟩ := Pos.pyEq_iff.1 h
        have h4 : dict2repr q.feats = dict2repr p.feats := sortedItems_eq_iff.2 h3
        simp only [Splitter.split, Except.ok.injEq] at hp ⊢
        exact ⟨ps, by rw [h1, h2, h4, hp], hrefl⟩
  | gran keys =>
    cases p with
    | none => simp [Splitter.split] at hp
    | some p =>
      cases q with
      | none => simp [Token.optPosEq] at h
      | some q =>
        obtain ⟨h1, h2, h3⟩ := Pos.pyEq_iff.1 h
        have h4 : ∀ k, q.feats.get? k = p.feats.get? k := h3
        simp only [Splitter.split, Except.ok.injEq] at hp ⊢
        exact ⟨ps, by simp only [h1, h2, h4, hp], hrefl⟩

/-- The names under which the tags themselves are kept are not used as feature names. -/
def NoTagFeatures (labels : List (Option Pos)) : Prop :=
  ∀ p, some p ∈ labels → "UPOS".toList ∉ p.feats.keys ∧ "XPOS".toList ∉ p.feats.keys

theorem mem_granKeys {labels : List (Option Pos)} {ks : List (List Str)}
    (h : mapM' labelFeatKeys labels = .ok ks) (k : Str) :
    k ∈ ks.flatten ↔ ∃ p, some p ∈ labels ∧ k ∈ p.feats.keys := by
  rw [mapM'_ok_iff] at h
  induction h with
  | nil => simp
  | @cons a b labels ks hab _ ih =>
    rw [List.flatten_cons, List.mem_append, ih]
    cases a with
    | none => simp [labelFeatKeys] at hab
    | some p =>
      simp only [labelFeatKeys, Except.ok.injEq] at hab
      subst hab
      constructor
      · rintro (h | ⟨q, h1, h2⟩)
        · exact ⟨p, by simp, h⟩
        · exact ⟨q, List.mem_cons_of_mem _ h1, h2⟩
      · rintro ⟨q, h1, h2⟩
        rcases List.mem_cons.1 h1 with h1 | h1
        · injection h1 with h1
          subst h1
          exact Or.inl h2
        · exact Or.inr ⟨q, h1, h2⟩

theorem makeSplitter_spec {s : Splitting} {labels : List (Option Pos)} {sp : Splitter}
    (h : makeSplitter s labels = .ok sp) :
    ((s = .gran → NoTagFeatures labels) → NoClash sp) ∧ ∀ p ∈ labels, KnowsFeats sp p := by
  unfold makeSplitter at h
  split at h
  · injection h with h; subst h; exact ⟨fun _ => trivial, fun p _ => trivial⟩
  · injection h with h; subst h; exact ⟨fun _ => trivial, fun p _ => trivial⟩
  · injection h with h; subst h; exact ⟨fun _ => trivial, fun p _ => trivial⟩
  · split at h
    · simp at h
    · rename_i ks hks
      injection h with h
      subst h
      have hmem : ∀ k, k ∈ pySorted (· ≤ ·) ks.flatten.dedup ↔
          ∃ p, some p ∈ labels ∧ k ∈ p.feats.keys := by
        intro k
        rw [mem_pySorted, List.mem_dedup, mem_granKeys hks]
      refine ⟨fun hno => ⟨?_, ?_, ?_⟩, ?_⟩
      · rw [(pySorted_perm _ _).nodup_iff]
        exact List.nodup_dedup _
      · rw [hmem]
        rintro ⟨p, h1, h2⟩
        exact (hno rfl p h1).1 h2
      · rw [hmem]
        rintro ⟨p, h1, h2⟩
        exact (hno rfl p h1).2 h2
      · intro p hp
        cases p with
        | none => trivial
        | some p => exact fun k hk => (hmem k).2 ⟨p, hp, hk⟩

theorem KnowsFeats.congr {sp : Splitter} {p q : Option Pos} (h : Token.optPosEq q p = true)
    (hk : KnowsFeats sp q) : KnowsFeats sp p := by
  cases sp with
  | gran keys =>
    cases p with
    | none => trivial
    | some p =>
      cases q with
      | none => simp [Token.optPosEq] at h
      | some q =>
        intro k hk'
        have h3 : ∀ k, q.feats.get? k = p.feats.get? k := (Pos.pyEq_iff.1 h).2.2
        exact hk k (Dict.get?_isSome.1 (by rw [h3]; exact Dict.get?_isSome.2 hk'))
  | _ => trivial

/-- C45: for every splitting strategy, the labels of a training token decode to its tag (an equal
`Pos`: same tags, same features), and interpreting them changes nothing else of a token.

Partial: with the granular splitting, features named `UPOS` or `XPOS` have to be excluded
(`C45_refuted`). -/
theorem C45_partial (s : Splitting) (labels : List (Option Pos)) (t : PosTable)
    (h : buildPosTable s labels = .ok t) (hno : s = .gran → NoTagFeatures labels)
    (p : Option Pos) (hp : p ∈ labels) :
    ∃ ids q, t.encode p = .ok ids ∧ Option.Rel SamePos q p ∧
      ∀ tok : Token, t.interpret tok ids = .ok { tok with pos := q } := by
  obtain ⟨hsp, keys, ht⟩ := buildPosTable_spec h
  obtain ⟨m1, m2⟩ := makeSplitter_spec hsp
  have hn : NoClash t.splitter :=
    m1 (fun hg q hq => hno hg q (firsts_mem hq))
  obtain ⟨p', hp', hpp⟩ := firsts_covers optPosEq_rel hp
  obtain ⟨ps', hps'⟩ := ht.splits p' hp'
  obtain ⟨ps, hps, _⟩ := split_congr (optPosEq_rel.symm _ _ hpp) hps'
  obtain ⟨ps'', hps'', hvals⟩ := split_congr hpp hps
  rw [hps'] at hps''
  injection hps'' with hps''
  subst hps''
  obtain ⟨ids, henc, hlen, hid⟩ := encode_spec ht hps
  have hget : ∀ (j : Nat) i l, ids[j]? = some i → t.id2parts[j]? = some l →
      ∃ v y, (ps.entries.map Prod.snd)[j]? = some v ∧ i < l.length ∧ l[i]? = some y ∧
        TagPart.eq y v = true := by
    intro j i l hi hl
    have hj : j < keys.length := hlen ▸ (List.getElem?_eq_some_iff.1 hi).1
    have hk := List.getElem?_eq_getElem hj
    obtain ⟨v, hv1, hv2, hlt, hy⟩ := hid j i l _ hi hl hk
    obtain ⟨w, hw1, hw2⟩ := hvals _ _ hv1
    obtain ⟨y0, hy0, hyw⟩ := ht.covers j _ l hk hl p' hp' ps' hps' w hw1
    obtain ⟨y, hy1, hy2⟩ := hy ⟨y0, hy0, partEq_rel.trans _ _ _ hyw hw2⟩
    exact ⟨v, y, hv2, hlt, hy1, hy2⟩
  obtain ⟨ys, hylen, hdec, hys⟩ := decode_parts (ids := ids) (by rw [hlen, ht.length])
    (fun j i l hi hl => by obtain ⟨_, _, _, h2, _⟩ := hget j i l hi hl; exact h2)
  obtain ⟨q0, hq0, hq0p⟩ := combine_split hn (KnowsFeats.congr hpp (m2 p' hp')) hps
  have hall : List.Forall₂ (fun y v => TagPart.eq y v = true) ys (ps.entries.map Prod.snd) := by
    rw [forall₂_getElem?]
    have hl1 : (ps.entries.map Prod.snd).length = keys.length := by
      rw [← ht.keys_eq p ps hps]; simp [Dict.keys]
    refine ⟨by omega, ?_⟩
    intro j y v hy hv
    have hj : j < ids.length := hylen ▸ (List.getElem?_eq_some_iff.1 hy).1
    have hi := List.getElem?_eq_getElem hj
    have hl := List.getElem?_eq_getElem (show j < t.id2parts.length by rw [ht.length]; omega)
    obtain ⟨v', y', g1, _, g3, g4⟩ := hget j _ _ hi hl
    have h5 := hys j _ _ hi hl
    rw [hy, g3] at h5
    rw [hv] at g1
    injection h5 with h5
    injection g1 with g1
    subst h5 g1
    exact g4
  obtain ⟨q, hq, hqq⟩ := combine_congr t.splitter ys _ hall q0 hq0
  refine ⟨_, q, henc, optPosEq_iff.1 (optPosEq_rel.trans _ _ _ hqq hq0p), ?_⟩
  intro tok
  simp only [PosTable.interpret, hdec, hq, Token.withMorphology_ok]

/-- C45: the labels of any tag, known or not, are in the range of the table (so that they are valid
classes); unknown parts get class 0. -/
theorem C45_labels_in_range (s : Splitting) (labels : List (Option Pos)) (t : PosTable)
    (h : buildPosTable s labels = .ok t) (p : Option Pos) (hp : s = .joint ∨ p ≠ none) :
    ∃ ids, t.encode p = .ok ids ∧
      List.Forall₂ (fun (i : Int) (l : List TagPart) => 0 ≤ i ∧ i < l.length) ids t.id2parts := by
  obtain ⟨hsp, keys, ht⟩ := buildPosTable_spec h
  obtain ⟨ps, hps⟩ : ∃ ps, t.splitter.split p = .ok ps := by
    cases hs : t.splitter with
    | joint => exact ⟨_, rfl⟩
    | _ =>
      cases p with
      | none =>
        rcases hp with rfl | hp
        · simp [makeSplitter, hs] at hsp
        · exact absurd rfl hp
      | some p => exact ⟨_, rfl⟩
  obtain ⟨ids, henc, hlen, hid⟩ := encode_spec ht hps
  refine ⟨_, henc, ?_⟩
  rw [forall₂_getElem?]
  refine ⟨by rw [List.length_map, hlen, ht.length], ?_⟩
  intro j i l hi hl
  rw [List.getElem?_map] at hi
  obtain ⟨n, hn, rfl⟩ := Option.map_eq_some_iff.1 hi
  have hj : j < keys.length := hlen ▸ (List.getElem?_eq_some_iff.1 hn).1
  obtain ⟨v, _, _, hlt, _⟩ := hid j n l _ hn hl (List.getElem?_eq_getElem hj)
  exact ⟨Int.natCast_nonneg n, by exact_mod_cast hlt⟩

/-- C45, error branch: classes outside the table never become a tag: if the classes are interpreted,
there are not more of them than parts of a tag, and each is an index of its part's table (in python's
sense, negative ones counting from the end). -/
theorem C45_predictions_rejected (t : PosTable) (ids : List Int) (tok tok' : Token)
    (h : t.interpret tok ids = .ok tok') :
    ids.length ≤ t.id2parts.length ∧
      ∀ (j : Nat) (i : Int) (l : List TagPart), ids[j]? = some i → t.id2parts[j]? = some l →
        -(l.length : Int) ≤ i ∧ i < l.length := by
  have hall : ∀ (j : Nat) (i : Int), ids[j]? = some i → ∃ y, decodePart t.id2parts (i, j) = .ok y := by
    unfold PosTable.interpret PosTable.decode at h
    cases hm : mapM' (decodePart t.id2parts) ids.zipIdx with
    | error e => rw [hm] at h; cases h
    | ok parts =>
      intro j i hi
      obtain ⟨hlen, hget⟩ := mapM'_zipIdx_ok.1 hm
      have hj := (List.getElem?_eq_some_iff.1 hi).1
      rw [hlen] at hj
      exact ⟨_, hget j i _ hi (List.getElem?_eq_getElem hj)⟩
  constructor
  · by_contra hc
    have hlt : t.id2parts.length < ids.length := by omega
    obtain ⟨y, hy⟩ := hall t.id2parts.length _ (List.getElem?_eq_getElem hlt)
    simp [decodePart] at hy
  · intro j i l hi hl
    obtain ⟨y, hy⟩ := hall j i hi
    simp only [decodePart, hl, pyGet] at hy
    by_cases hneg : i < 0
    · rw [if_pos hneg] at hy
      by_cases hlow : i + (l.length : Int) < 0
      · rw [if_pos hlow] at hy; cases hy
      · omega
    · rw [if_neg hneg, if_neg hneg] at hy
      by_cases hhigh : i < l.length
      · omega
      · rw [List.getElem?_eq_none (by omega)] at hy; cases hy

theorem assocSet_length {K V : Type} [DecidableEq K] (k : K) (v : V) (l : List (K × V)) :
    l.length ≤ (assocSet k v l).length ∧ (assocSet k v l).length ≤ l.length + 1 := by
  induction l with
  | nil => simp [assocSet]
  | cons p l ih =>
    simp only [assocSet]
    split <;> simp only [List.length_cons] <;> omega

theorem updateList_length {K V : Type} [DecidableEq K] (l : List (K × V)) (d : Dict K V) :
    d.entries.length ≤ (d.updateList l).entries.length ∧
      (d.updateList l).entries.length ≤ d.entries.length + l.length := by
  induction l generalizing d with
  | nil => simp [Dict.updateList]
  | cons p l ih =>
    have h1 := ih (d.set p.1 p.2)
    have h2 : d.entries.length ≤ (d.set p.1 p.2).entries.length ∧
      (d.set p.1 p.2).entries.length ≤ d.entries.length + 1 := assocSet_length p.1 p.2 d.entries
    simp only [Dict.updateList, List.foldl_cons, List.length_cons] at h1 ⊢
    omega

/-- C45: whatever classes in the range of the table are predicted, they decode to a tag (also if a feature is named like
the tags). -/
theorem C45_predictions_decode (s : Splitting) (labels : List (Option Pos)) (t : PosTable)
    (h : buildPosTable s labels = .ok t) (ids : List Int)
    (hids : List.Forall₂ (fun (i : Int) (l : List TagPart) => 0 ≤ i ∧ i < l.length) ids t.id2parts)
    (tok : Token) : ∃ q, t.interpret tok ids = .ok { tok with pos := q } := by
  obtain ⟨hsp, keys, ht⟩ := buildPosTable_spec h
  obtain ⟨ns, rfl⟩ : ∃ ns : List Nat, ids = ns.map (fun (n : Nat) => (n : Int)) := by
    refine ⟨ids.map Int.toNat, ?_⟩
    rw [List.map_map]
    conv_lhs => rw [← List.map_id ids]
    refine List.map_congr_left ?_
    intro i hi
    obtain ⟨j, hj⟩ := List.mem_iff_getElem?.1 hi
    rw [forall₂_getElem?] at hids
    have hlt := (List.getElem?_eq_some_iff.1 hj).1
    rw [hids.1] at hlt
    have := (hids.2 j i _ hj (List.getElem?_eq_getElem hlt)).1
    simp [Int.toNat_of_nonneg this]
  rw [forall₂_getElem?, List.length_map] at hids
  obtain ⟨hlen, hr⟩ := hids
  have hr' : ∀ (j : Nat) i l, ns[j]? = some i → t.id2parts[j]? = some l → i < l.length := by
    intro j i l hi hl
    have := (hr j i l (by rw [List.getElem?_map, hi]; rfl) hl).2
    exact_mod_cast this
  obtain ⟨ys, hylen, hdec, hys⟩ := decode_parts hlen hr'
  have hok : ∀ (j : Nat) k, keys[j]? = some k → ∃ y, ys[j]? = some y ∧ PartOK t.splitter k y := by
    intro j k hk
    have hj := (List.getElem?_eq_some_iff.1 hk).1
    have hl := List.getElem?_eq_getElem (show j < t.id2parts.length by rw [ht.length]; exact hj)
    have hi := List.getElem?_eq_getElem (show j < ns.length by rw [hlen, ht.length]; exact hj)
    have hin := hr' j _ _ hi hl
    have hy := (hys j _ _ hi hl).trans (List.getElem?_eq_getElem hin)
    refine ⟨_, hy, ?_⟩
    obtain ⟨p, _, ps, h1, h2⟩ := ht.from_labels j k _ hk hl _ (List.getElem_mem hin)
    exact split_partOK h1 h2
  have hcomb : ∃ q, t.splitter.combine ys = .ok q := by
    cases hs : t.splitter with
    | joint =>
      have hkeys := ht.keys_eq none _ (by rw [hs]; rfl)
      have h0 : keys = [sPOS] := by rw [← hkeys]; decide
      rw [h0] at hok
      obtain ⟨y, hy, hyo⟩ := hok 0 sPOS rfl
      rw [hs] at hyo
      obtain ⟨p, rfl⟩ := hyo
      cases ys with
      | nil => simp at hy
      | cons y ys =>
        simp only [List.getElem?_cons_zero, Option.some.injEq] at hy
        subst hy
        exact ⟨p, rfl⟩
    | uxf =>
      have hkeys := ht.keys_eq (some ⟨none, none, .empty⟩) _ (by rw [hs]; rfl)
      have h0 : keys = [sUPOS, sXPOS, sFEATS] := by rw [← hkeys]; decide
      rw [h0] at hok
      obtain ⟨y0, hy0, hyo0⟩ := hok 0 sUPOS rfl
      obtain ⟨y1, hy1, hyo1⟩ := hok 1 sXPOS rfl
      obtain ⟨y2, hy2, hyo2⟩ := hok 2 sFEATS rfl
      rw [hs] at hyo0 hyo1 hyo2
      obtain ⟨a, rfl⟩ := hyo0.1 (Or.inl rfl)
      obtain ⟨b, rfl⟩ := hyo1.1 (Or.inr rfl)
      obtain ⟨c, rfl⟩ := hyo2.2 rfl
      rcases ys with _ | ⟨z0, _ | ⟨z1, _ | ⟨z2, ys⟩⟩⟩
      · simp at hy0
      · simp at hy1
      · simp at hy2
      · simp only [List.getElem?_cons_zero, List.getElem?_cons_succ, Option.some.injEq]
          at hy0 hy1 hy2
        subst hy0 hy1 hy2
        exact ⟨_, rfl⟩
    | xf =>
      have hkeys := ht.keys_eq (some ⟨none, none, .empty⟩) _ (by rw [hs]; rfl)
      have h0 : keys = [sUPOS, sXPOSFEATS] := by rw [← hkeys]; decide
      rw [h0] at hok
      obtain ⟨y0, hy0, hyo0⟩ := hok 0 sUPOS rfl
      obtain ⟨y1, hy1, hyo1⟩ := hok 1 sXPOSFEATS rfl
      rw [hs] at hyo0 hyo1
      obtain ⟨a, rfl⟩ := hyo0.1 rfl
      obtain ⟨b, c, rfl⟩ := hyo1.2 rfl
      rcases ys with _ | ⟨z0, _ | ⟨z1, ys⟩⟩
      · simp at hy0
      · simp at hy1
      · simp only [List.getElem?_cons_zero, List.getElem?_cons_succ, Option.some.injEq] at hy0 hy1
        subst hy0 hy1
        exact ⟨_, rfl⟩
    | gran fk =>
      have hkeys := ht.keys_eq (some ⟨none, none, .empty⟩) _ (by rw [hs]; rfl)
      have h0 : 2 ≤ keys.length ∧ keys.length ≤ fk.length + 2 := by
        have h1 := updateList_length (Dict.ofList (fk.map (fun k => (k, TagPart.str (Dict.empty.get? k))))).entries
          (Dict.ofList [(sUPOS, TagPart.str none), (sXPOS, .str none)])
        have h2 := updateList_length (fk.map (fun k => (k, TagPart.str (Dict.empty.get? k)))) (Dict.empty)
        have h3 : (Dict.ofList [(sUPOS, TagPart.str none), (sXPOS, .str none)]).entries.length = 2 := rfl
        rw [h3] at h1
        rw [← hkeys, Dict.keys, List.length_map]
        have h4 : (Dict.empty : Dict Str TagPart).entries.length = 0 := rfl
        rw [List.length_map, h4] at h2
        have h5 : (Dict.ofList (fk.map (fun k => (k, TagPart.str (Dict.empty.get? k))))).entries.length =
          ((Dict.empty : Dict Str TagPart).updateList (fk.map (fun k => (k, TagPart.str (Dict.empty.get? k))))).entries.length := rfl
        have h6 : 2 ≤ ((Dict.ofList [(sUPOS, TagPart.str none), (sXPOS, .str none)]).update
          (Dict.ofList (fk.map (fun k => (k, TagPart.str (Dict.empty.get? k)))))).entries.length ∧
          ((Dict.ofList [(sUPOS, TagPart.str none), (sXPOS, .str none)]).update
          (Dict.ofList (fk.map (fun k => (k, TagPart.str (Dict.empty.get? k)))))).entries.length ≤ fk.length + 2 := by
          rw [Dict.update]
          omega
        exact h6
      have hstr : ∀ y ∈ ys, ∃ v, y = .str v := by
        intro y hy
        obtain ⟨j, hj⟩ := List.mem_iff_getElem?.1 hy
        have hjl := (List.getElem?_eq_some_iff.1 hj).1
        rw [hylen, hlen, ht.length] at hjl
        obtain ⟨y', h1, h2⟩ := hok j _ (List.getElem?_eq_getElem hjl)
        rw [hj] at h1
        injection h1 with h1
        subst h1
        rw [hs] at h2
        exact h2
      have hyl : 2 ≤ ys.length ∧ ys.length ≤ fk.length + 2 := by rw [hylen, hlen, ht.length]; exact h0
      rcases ys with _ | ⟨z0, _ | ⟨z1, ys⟩⟩
      · simp at hyl
      · simp at hyl
      · obtain ⟨a, rfl⟩ := hstr z0 (by simp)
        obtain ⟨b, rfl⟩ := hstr z1 (by simp)
        simp only [List.length_cons] at hyl
        obtain ⟨l, hl⟩ := granFeats_total fk ys (by omega)
          (fun y hy => hstr y (List.mem_cons_of_mem _ (List.mem_cons_of_mem _ hy)))
        exact ⟨some ⟨a, b, Dict.ofList l⟩, by simp only [Splitter.combine, hl]⟩
  obtain ⟨q, hq⟩ := hcomb
  exact ⟨q, by simp only [PosTable.interpret, hdec, hq, Token.withMorphology_ok]⟩

/-- The tags that a splitting sorts as tuples are given for all tags or for none. -/
def Uniform (s : Splitting) (labels : List (Option Pos)) : Prop :=
  ∀ p q, some p ∈ labels → some q ∈ labels →
    (s = .joint → p.upos.isSome = q.upos.isSome) ∧
    (s = .joint ∨ s = .xf → p.xpos.isSome = q.xpos.isSome)

theorem optStrLt_total {a b : Option Str} (h : a.isSome = b.isSome) (hne : a ≠ b) :
    ∃ r, optStrLt a b = .ok r := by
  cases a <;> cases b
  · exact absurd rfl hne
  · simp at h
  · simp at h
  · exact ⟨_, rfl⟩

theorem TagPart.lt_str_total (a b : Option Str) : ∃ r, TagPart.lt (.str a) (.str b) = .ok r := by
  cases a with
  | none => exact ⟨_, rfl⟩
  | some a => cases b <;> exact ⟨_, rfl⟩

theorem split_comparable {s : Splitting} {labels0 labels : List (Option Pos)} {sp : Splitter}
    (hsp : makeSplitter s labels0 = .ok sp) (hu : Uniform s labels) {p q : Option Pos}
    (hp : p ∈ labels) (hq : q ∈ labels) {ps qs : Dict Str TagPart} (hps : sp.split p = .ok ps)
    (hqs : sp.split q = .ok qs) {k : Str} {y z : TagPart} (hy : ps.get? k = some y)
    (hz : qs.get? k = some z) : ∃ r, TagPart.lt y z = .ok r := by
  have hyo := split_partOK hps hy
  have hzo := split_partOK hqs hz
  cases sp with
  | joint =>
    have hs : s = .joint := by
      cases s <;> simp [makeSplitter] at hsp ⊢
      split at hsp <;> simp at hsp
    simp only [Splitter.split, Except.ok.injEq] at hps hqs
    subst hps hqs
    have h1 := ofList_mem_of_get? _ _ _ hy
    have h2 := ofList_mem_of_get? _ _ _ hz
    simp only [List.mem_singleton, Prod.mk.injEq] at h1 h2
    obtain ⟨_, rfl⟩ := h1
    obtain ⟨_, rfl⟩ := h2
    cases p with
    | none => exact ⟨_, rfl⟩
    | some p =>
      cases q with
      | none => exact ⟨_, rfl⟩
      | some q =>
        obtain ⟨u1, u2⟩ := hu p q hp hq
        simp only [TagPart.lt]
        split
        · exact ⟨_, rfl⟩
        · unfold Pos.lt
          split
          · rename_i hne
            exact optStrLt_total (u1 hs) hne
          · split
            · rename_i hne
              exact optStrLt_total (u2 (Or.inl hs)) hne
            · exact ⟨_, rfl⟩
  | gran keys =>
    obtain ⟨a, rfl⟩ := hyo
    obtain ⟨b, rfl⟩ := hzo
    exact TagPart.lt_str_total a b
  | uxf =>
    cases p <;> cases q <;> simp only [Splitter.split, Except.ok.injEq, reduceCtorEq] at hps hqs
    subst hps hqs
    have h1 := ofList_mem_of_get? _ _ _ hy
    simp only [List.mem_cons, Prod.mk.injEq, List.not_mem_nil, or_false] at h1
    rcases h1 with ⟨rfl, rfl⟩ | ⟨rfl, rfl⟩ | ⟨rfl, rfl⟩
    · obtain ⟨b, rfl⟩ := hzo.1 (Or.inl rfl)
      exact TagPart.lt_str_total _ b
    · obtain ⟨b, rfl⟩ := hzo.1 (Or.inr rfl)
      exact TagPart.lt_str_total _ b
    · obtain ⟨b, rfl⟩ := hzo.2 rfl
      exact ⟨_, rfl⟩
  | xf =>
    have hs : s = .xf := by
      cases s <;> simp [makeSplitter] at hsp ⊢
      split at hsp <;> simp at hsp
    cases p <;> cases q <;> simp only [Splitter.split, Except.ok.injEq, reduceCtorEq] at hps hqs
    subst hps hqs
    rename_i p q
    have h1 := ofList_mem_of_get? _ _ _ hy
    have h2 := ofList_mem_of_get? _ _ _ hz
    simp only [List.mem_cons, Prod.mk.injEq, List.not_mem_nil, or_false] at h1 h2
    rcases h1 with ⟨rfl, rfl⟩ | ⟨rfl, rfl⟩
    · obtain ⟨b, rfl⟩ := hzo.1 rfl
      exact TagPart.lt_str_total _ b
    · rcases h2 with ⟨h2, _⟩ | ⟨_, rfl⟩
      · exact absurd h2 (by decide)
      · simp only [TagPart.lt]
        split
        · rename_i hne
          exact optStrLt_total ((hu p q hp hq).2 (Or.inr hs)) hne
        · exact ⟨_, rfl⟩

/-- C45: for a non-empty training set the tables can always be built with the strategies that sort
single values, if every token has a tag; with the others if the tags that are compared are present
everywhere or nowhere. -/
theorem C45_built (s : Splitting) (labels : List (Option Pos)) (hne : labels ≠ [])
    (htag : s = .joint ∨ none ∉ labels) (hu : Uniform s labels) :
    ∃ t, buildPosTable s labels = .ok t := by
  have hfst : (counter Token.optPosEq labels).map Prod.fst = firsts Token.optPosEq labels := by
    rw [counter_eq optPosEq_rel, List.map_map]
    exact List.map_id _
  have hmem : ∀ p ∈ firsts Token.optPosEq labels, p ∈ labels := fun p hp => firsts_mem hp
  have hsp : ∃ sp, makeSplitter s (firsts Token.optPosEq labels) = .ok sp := by
    cases s with
    | gran =>
      have htag' := htag.resolve_left (by simp)
      obtain ⟨ks, hks⟩ := mapM'_total (f := labelFeatKeys) (l := firsts Token.optPosEq labels) (by
        intro p hp
        cases p with
        | none => exact absurd (hmem _ hp) htag'
        | some p => exact ⟨_, rfl⟩)
      exact ⟨.gran (pySorted (· ≤ ·) ks.flatten.dedup), by simp only [makeSplitter, hks]⟩
    | _ => exact ⟨_, rfl⟩
  obtain ⟨sp, hsp⟩ := hsp
  have hsplit : ∀ p ∈ firsts Token.optPosEq labels, ∃ ps, sp.split p = .ok ps := by
    intro p hp
    cases p with
    | none =>
      rcases htag with rfl | htag
      · simp only [makeSplitter, Except.ok.injEq] at hsp
        subst hsp
        exact ⟨_, rfl⟩
      · exact absurd (hmem _ hp) htag
    | some p => cases sp <;> exact ⟨_, rfl⟩
  have hcne : counter Token.optPosEq labels ≠ [] := by
    intro h0
    rw [h0] at hfst
    cases labels with
    | nil => exact hne rfl
    | cons p labels => simp [firsts] at hfst
  obtain ⟨counts, hc⟩ := countParts_total hcne (by rw [hfst]; exact hsplit)
  obtain ⟨keys, hi, _, hk⟩ := countParts_spec hc
  rw [hfst] at hi
  obtain ⟨tables, ht⟩ := mapM'_total (f := fun p => id2obj TagPart.eq TagPart.lt p.2 0)
      (l := counts.entries) (by
    rintro ⟨k, c⟩ he
    have hg : counts.get? k = some c := Dict.get?_mem.2 he
    refine id2obj_zero_total ?_ ?_
    · rintro rfl
      obtain ⟨p, hp⟩ := List.exists_mem_of_ne_nil _ hcne
      have hp' : p.1 ∈ firsts Token.optPosEq labels := by
        rw [← hfst]; exact List.mem_map.2 ⟨p, hp, rfl⟩
      obtain ⟨ps, hps⟩ := hsplit _ hp'
      have hkm : k ∈ ps.keys := by
        rw [hk _ _ hps, ← hi.keys_eq]
        exact List.mem_map.2 ⟨_, he, rfl⟩
      obtain ⟨v, hv⟩ := Option.isSome_iff_exists.1 (Dict.get?_isSome.2 hkm)
      obtain ⟨y, hy, _⟩ := hi.covers k _ hg _ hp' ps hps v hv
      simp at hy
    · intro a ha b hb
      obtain ⟨p, hp, ps, h1, h2⟩ := hi.from_labels k c hg a ha
      obtain ⟨q, hq, qs, h3, h4⟩ := hi.from_labels k c hg b hb
      exact split_comparable hsp hu (hmem _ hp) (hmem _ hq) h1 h3 h2 h4)
  exact ⟨⟨sp, tables, tables.map (obj2id TagPart.eq)⟩, by simp only [buildPosTable, hfst, hsp, hc, ht]⟩

/-- C45: nothing is built from an empty training set, and the strategies that look into the tag
raise on a token without tag. -/
theorem C45_not_built (s : Splitting) :
    buildPosTable s [] = .error .stopIteration ∧
    (s ≠ .joint → ∀ labels, none ∈ labels → ∃ e, buildPosTable s labels = .error e) := by
  refine ⟨by cases s <;> rfl, ?_⟩
  intro hs labels hn
  cases hb : buildPosTable s labels with
  | error e => exact ⟨e, rfl⟩
  | ok t =>
    exfalso
    obtain ⟨hsp, keys, ht⟩ := buildPosTable_spec hb
    obtain ⟨y, hy, hye⟩ := firsts_covers optPosEq_rel hn
    cases y with
    | some y => simp [Token.optPosEq] at hye
    | none =>
      obtain ⟨ps, hps⟩ := ht.splits none hy
      cases hst : t.splitter with
      | joint =>
        rw [hst] at hsp
        cases s <;> simp [makeSplitter] at hsp hs
        split at hsp <;> simp at hsp
      | _ => rw [hst] at hps; simp [Splitter.split] at hps

namespace Demo

/-- A tag whose features contain the name `UPOS`. -/
def clashing : Pos := ⟨some "NOUN".toList, none, Dict.ofList [("UPOS".toList, "X".toList)]⟩

def nounSg : Pos := ⟨some "NOUN".toList, some "NN".toList, Dict.ofList
  [("Number".toList, "Sing".toList), ("Case".toList, "Nom".toList)]⟩

def verb : Pos := ⟨some "VERB".toList, some "VB".toList, Dict.ofList
  [("Mood".toList, "Ind".toList), ("Number".toList, "Sing".toList)]⟩

/-- The noun tag with its features in another order. -/
def nounSg' : Pos := ⟨some "NOUN".toList, some "NN".toList, Dict.ofList
  [("Case".toList, "Nom".toList), ("Number".toList, "Sing".toList)]⟩

end Demo

/-- C45 is false as stated: with the granular splitting a feature named `UPOS` overwrites the part of
the universal tag, and the tag that comes back has that feature's value as its tag. -/
theorem C45_refuted : ∃ t ids q, buildPosTable .gran [some Demo.clashing] = .ok t ∧
    t.encode (some Demo.clashing) = .ok ids ∧ t.decode ids = .ok q ∧
    ¬ Option.Rel SamePos q (some Demo.clashing) := by
  refine ⟨_, _, _, rfl, rfl, rfl, ?_⟩
  intro h
  cases h with
  | some h => exact absurd h.1 (by decide)

/-- Non-vacuity of `C45_partial`, `C45_labels_in_range`, `C45_predictions_decode` and `C45_built`:
training tags with overlapping features; the granular tables know three features. -/
example : ∃ t, buildPosTable .gran [some Demo.nounSg, some Demo.verb, some Demo.nounSg'] = .ok t ∧
    t.encode (some Demo.verb) = .ok [1, 1, 1, 1, 0] ∧
    t.id2parts.map List.length = [2, 2, 2, 2, 1] ∧
    NoTagFeatures [some Demo.nounSg, some Demo.verb, some Demo.nounSg'] := by
  refine ⟨_, rfl, by decide, by decide, ?_⟩
  intro p hp
  simp only [List.mem_cons, List.not_mem_nil, or_false, Option.some.injEq] at hp
  rcases hp with rfl | rfl | rfl <;> decide

example : Uniform .joint [some Demo.nounSg, none, some Demo.verb] := by
  intro p q hp hq
  simp only [List.mem_cons, List.not_mem_nil, or_false, Option.some.injEq, reduceCtorEq,
    false_or] at hp hq
  rcases hp with rfl | rfl <;> rcases hq with rfl | rfl <;> decide

/-- Without uniformity building can raise: `None` is compared with a string. -/
example : (buildPosTable .joint [some ⟨some "A".toList, none, .empty⟩,
    some ⟨some "B".toList, none, .empty⟩,
    some ⟨some "B".toList, some "x".toList, .empty⟩]).toOption.isNone = true := by decide

/-- An unknown tag gets class 0 of the joint table. -/
example : ∃ t, buildPosTable .joint [some Demo.nounSg, some Demo.verb] = .ok t ∧
    t.encode (some Demo.clashing) = .ok [0] := ⟨_, rfl, by decide⟩

/-- A class that the joint table does not have, and a class too many. -/
example : ∃ t, buildPosTable .joint [some Demo.nounSg, some Demo.verb] = .ok t ∧
    (t.decode [1]).toOption = some (some Demo.verb) ∧ (t.decode [2]).toOption = none ∧
    (t.decode [1, 0]).toOption = none := ⟨_, rfl, by decide, by decide, by decide⟩

end Verif
