import Verif.Proofs.TagCounts

/-! # C153: the ids of the parts of tags, the most frequent values and the order of the training data -/

namespace Verif

/-! ### what the parts of a tag are -/

/-- The names of the parts into which tags are split: the tag as a whole; the universal tag and the rest; the two
tags and the features; the two tags and every feature of the training words. -/
def partNames (s : Splitting) (labels : List (Option Pos)) : List Str :=
  match s with
  | .joint => ["POS".toList]
  | .xf => ["UPOS".toList, "XPOS+FEATS".toList]
  | .uxf => ["UPOS".toList, "XPOS".toList, "FEATS".toList]
  | .gran => "UPOS".toList :: "XPOS".toList ::
      pySorted (· ≤ ·) (labels.flatMap (fun l => match l with | some p => p.feats.keys | none => [])).dedup

/-- Two tags agree in the part with a name. -/
def samePart (s : Splitting) (name : Str) : Option Pos → Option Pos → Bool
  | some p, some q =>
    match s with
    | .joint => p.upos = q.upos ∧ p.xpos = q.xpos ∧ p.feats.pyEq q.feats
    | .xf => if name = "UPOS".toList then p.upos = q.upos else p.xpos = q.xpos ∧ p.feats.pyEq q.feats
    | .uxf => if name = "UPOS".toList then p.upos = q.upos
      else if name = "XPOS".toList then p.xpos = q.xpos else p.feats.pyEq q.feats
    | .gran => if name = "UPOS".toList then p.upos = q.upos
      else if name = "XPOS".toList then p.xpos = q.xpos else p.feats.get? name = q.feats.get? name
  | none, none => s = .joint
  | _, _ => false

/-- The number of training words that agree with a tag in a part. -/
def sharing (s : Splitting) (name : Str) (labels : List (Option Pos)) (p : Option Pos) : Nat :=
  labels.countP (fun q => samePart s name q p)

/-! ### the parts of the model -/

theorem granKeys_eq {labels : List (Option Pos)} {keys : List Str}
    (h : makeSplitter .gran (firsts Token.optPosEq labels) = .ok (.gran keys)) :
    keys = pySorted (· ≤ ·)
      (labels.flatMap (fun l => match l with | some p => p.feats.keys | none => [])).dedup := by
  simp only [makeSplitter] at h
  split at h
  · cases h
  · rename_i ks hks
    injection h with h
    injection h with h
    rw [← h]
    refine pySorted_eq_of_perm _ le_total (fun a b c => le_trans) (fun a b _ _ => le_antisymm) ?_
    rw [List.perm_ext_iff_of_nodup (List.nodup_dedup _) (List.nodup_dedup _)]
    intro k
    rw [List.mem_dedup, List.mem_dedup, mem_granKeys hks, List.mem_flatMap]
    constructor
    · rintro ⟨p, hp, hk⟩
      exact ⟨some p, firsts_mem hp, hk⟩
    · rintro ⟨p, hp, hk⟩
      cases p with
      | none => simp at hk
      | some p =>
        obtain ⟨q, hq, e⟩ := firsts_covers optPosEq_rel hp
        cases q with
        | none => simp [Token.optPosEq] at e
        | some q =>
          refine ⟨q, hq, ?_⟩
          have h3 : ∀ k, q.feats.get? k = p.feats.get? k := (Pos.pyEq_iff.1 e).2.2
          exact Dict.get?_isSome.1 (by rw [h3]; exact Dict.get?_isSome.2 hk)

/-- The parts of a tag: their names, and when two tags agree in one. -/
theorem split_parts {s : Splitting} {labels : List (Option Pos)} {sp : Splitter}
    (hsp : makeSplitter s (firsts Token.optPosEq labels) = .ok sp) (hno : s = .gran → NoTagFeatures labels) :
    (∀ p ps, sp.split p = .ok ps → ps.keys = partNames s labels) ∧
    (∀ p q ps qs k v w, sp.split p = .ok ps → sp.split q = .ok qs → ps.get? k = some v → qs.get? k = some w →
      TagPart.eq v w = samePart s k p q) := by
  have hn : NoClash sp := (makeSplitter_spec hsp).1 (fun hg q hq => hno hg q (firsts_mem hq))
  cases s with
  | joint =>
    simp only [makeSplitter, Except.ok.injEq] at hsp
    subst hsp
    refine ⟨?_, ?_⟩
    · intro p ps h
      simp only [Splitter.split, Except.ok.injEq] at h
      subst h
      rfl
    · intro p q ps qs k v w h h' hv hw
      simp only [Splitter.split, Except.ok.injEq] at h h'
      subst h h'
      have h1 := ofList_mem_of_get? _ _ _ hv
      have h2 := ofList_mem_of_get? _ _ _ hw
      simp only [List.mem_singleton, Prod.mk.injEq] at h1 h2
      rw [h1.2, h2.2]
      cases p <;> cases q <;> simp [TagPart.eq, Token.optPosEq, samePart, Pos.pyEq, Bool.and_assoc]
  | xf =>
    simp only [makeSplitter, Except.ok.injEq] at hsp
    subst hsp
    refine ⟨?_, ?_⟩
    · intro p ps h
      cases p <;> simp only [Splitter.split, Except.ok.injEq, reduceCtorEq] at h
      subst h
      rfl
    · intro p q ps qs k v w h h' hv hw
      cases p <;> simp only [Splitter.split, Except.ok.injEq, reduceCtorEq] at h
      cases q <;> simp only [Splitter.split, Except.ok.injEq, reduceCtorEq] at h'
      rename_i p q
      subst h h'
      have h1 := ofList_mem_of_get? _ _ _ hv
      have h2 := ofList_mem_of_get? _ _ _ hw
      have hd : ¬ sXPOSFEATS = sUPOS := by decide
      have hu : "UPOS".toList = sUPOS := by decide
      simp only [List.mem_cons, Prod.mk.injEq, List.not_mem_nil, or_false] at h1 h2
      rcases h1 with ⟨rfl, rfl⟩ | ⟨rfl, rfl⟩ <;> rcases h2 with ⟨e, rfl⟩ | ⟨e, rfl⟩
      · simp [TagPart.eq, samePart, hu]
      · exact absurd e.symm hd
      · exact absurd e hd
      · have : decide (dict2repr p.feats = dict2repr q.feats) = p.feats.pyEq q.feats := by
          rw [Bool.eq_iff_iff, decide_eq_true_eq, Dict.pyEq_iff]
          exact sortedItems_eq_iff
        simp [TagPart.eq, samePart, hu, hd, this]
  | uxf =>
    simp only [makeSplitter, Except.ok.injEq] at hsp
    subst hsp
    refine ⟨?_, ?_⟩
    · intro p ps h
      cases p <;> simp only [Splitter.split, Except.ok.injEq, reduceCtorEq] at h
      subst h
      rfl
    · intro p q ps qs k v w h h' hv hw
      cases p <;> simp only [Splitter.split, Except.ok.injEq, reduceCtorEq] at h
      cases q <;> simp only [Splitter.split, Except.ok.injEq, reduceCtorEq] at h'
      rename_i p q
      subst h h'
      have h1 := ofList_mem_of_get? _ _ _ hv
      have h2 := ofList_mem_of_get? _ _ _ hw
      have hu : "UPOS".toList = sUPOS := by decide
      have hx : "XPOS".toList = sXPOS := by decide
      have d1 : ¬ sXPOS = sUPOS := by decide
      have d2 : ¬ sFEATS = sUPOS := by decide
      have d3 : ¬ sFEATS = sXPOS := by decide
      simp only [List.mem_cons, Prod.mk.injEq, List.not_mem_nil, or_false] at h1 h2
      rcases h1 with ⟨rfl, rfl⟩ | ⟨rfl, rfl⟩ | ⟨rfl, rfl⟩ <;>
        rcases h2 with ⟨e, rfl⟩ | ⟨e, rfl⟩ | ⟨e, rfl⟩
      · simp [TagPart.eq, samePart, hu]
      · exact absurd e.symm d1
      · exact absurd e.symm d2
      · exact absurd e d1
      · simp [TagPart.eq, samePart, hu, hx, d1]
      · exact absurd e.symm d3
      · exact absurd e d2
      · exact absurd e d3
      · have : decide (dict2repr p.feats = dict2repr q.feats) = p.feats.pyEq q.feats := by
          rw [Bool.eq_iff_iff, decide_eq_true_eq, Dict.pyEq_iff]
          exact sortedItems_eq_iff
        simp [TagPart.eq, samePart, hu, hx, d2, d3, this]
  | gran =>
    have hg : ∃ keys, sp = .gran keys := by
      simp only [makeSplitter] at hsp
      split at hsp
      · cases hsp
      · injection hsp with hsp; exact ⟨_, hsp.symm⟩
    obtain ⟨keys, rfl⟩ := hg
    have hkeys := granKeys_eq hsp
    have hu : "UPOS".toList = sUPOS := by decide
    have hx : "XPOS".toList = sXPOS := by decide
    refine ⟨?_, ?_⟩
    · intro p ps h
      cases p with
      | none => cases h
      | some p =>
        rw [Dict.keys, gran_split_entries hn p h]
        simp only [partNames, ← hkeys, hu, hx, List.map_cons, List.map_map]
        simp [Function.comp_def]
    · intro p q ps qs k v w h h' hv hw
      cases p with
      | none => cases h
      | some p =>
        cases q with
        | none => cases h'
        | some q =>
          have h1 := Dict.get?_mem.1 hv
          have h2 := Dict.get?_mem.1 hw
          rw [gran_split_entries hn p h] at h1
          rw [gran_split_entries hn q h'] at h2
          obtain ⟨_, n1, n2⟩ := hn
          have d1 : ¬ sXPOS = sUPOS := by decide
          simp only [List.mem_cons, Prod.mk.injEq, List.mem_map] at h1 h2
          rcases h1 with ⟨rfl, rfl⟩ | ⟨rfl, rfl⟩ | ⟨k1, m1, rfl, rfl⟩ <;>
            rcases h2 with ⟨e, rfl⟩ | ⟨e, rfl⟩ | ⟨k2, m2, e, rfl⟩
          · simp [TagPart.eq, samePart, hu]
          · exact absurd e.symm d1
          · exact absurd (e ▸ m2) n1
          · exact absurd e d1
          · simp [TagPart.eq, samePart, hu, hx, d1]
          · exact absurd (e ▸ m2) n2
          · exact absurd (e ▸ m1) n1
          · exact absurd (e ▸ m1) n2
          · subst e
            have e1 : ¬ k2 = sUPOS := fun e => n1 (e ▸ m1)
            have e2 : ¬ k2 = sXPOS := fun e => n2 (e ▸ m1)
            simp [TagPart.eq, samePart, hu, hx, e1, e2]

theorem split_tagged {s : Splitting} {labels : List (Option Pos)} {sp : Splitter}
    (hsp : makeSplitter s labels = .ok sp) {p : Option Pos} (hp : s = .joint ∨ p ≠ none) :
    ∃ ps, sp.split p = .ok ps := by
  cases p with
  | some p => cases sp <;> exact ⟨_, rfl⟩
  | none =>
    rcases hp with rfl | hp
    · simp only [makeSplitter, Except.ok.injEq] at hsp
      subst hsp
      exact ⟨_, rfl⟩
    · exact absurd rfl hp

/-- What building does, in terms of the counts. -/
theorem buildPosTable_counts {s : Splitting} {labels : List (Option Pos)} {t : PosTable}
    (h : buildPosTable s labels = .ok t) :
    ∃ counts, countParts (counter Token.optPosEq labels) t.splitter = .ok counts ∧
      ∀ (j : Nat) k l, counts.keys[j]? = some k → t.id2parts[j]? = some l →
        ∃ c, counts.get? k = some c ∧ id2obj TagPart.eq TagPart.lt c 0 = .ok l := by
  unfold buildPosTable at h
  split at h
  · simp at h
  · split at h
    · simp at h
    · rename_i counts hc
      split at h
      · simp at h
      · rename_i tables ht
        injection h with h
        subst h
        refine ⟨counts, hc, ?_⟩
        rw [mapM'_ok_iff, forall₂_getElem?] at ht
        intro j k l hkj hl
        rw [Dict.keys, List.getElem?_map] at hkj
        obtain ⟨e, he, rfl⟩ := Option.map_eq_some_iff.1 hkj
        exact ⟨e.2, Dict.get?_mem.2 (List.mem_of_getElem? he), ht.2 j e l he hl⟩

/-- The counts of a part of a table. -/
structure PartTable (s : Splitting) (labels : List (Option Pos)) (sp : Splitter) (name : Str)
    (c : List (TagPart × Nat)) : Prop where
  distinct : Distinct TagPart.eq (c.map Prod.fst)
  from_labels : ∀ y ∈ c.map Prod.fst, ∃ p ∈ labels, ∃ ps, sp.split p = .ok ps ∧ ps.get? name = some y
  covers : ∀ p ∈ labels, ∃ ps v, sp.split p = .ok ps ∧ ps.get? name = some v ∧
    ∃ y ∈ c.map Prod.fst, TagPart.eq y v = true
  counts : ∀ p ps v, sp.split p = .ok ps → ps.get? name = some v →
    wsum (fun z => TagPart.eq z v) c = sharing s name labels p

theorem partTable {s : Splitting} {labels : List (Option Pos)} {t : PosTable}
    (h : buildPosTable s labels = .ok t) (hno : s = .gran → NoTagFeatures labels) (j : Nat) (name : Str)
    (hj : (partNames s labels)[j]? = some name) :
    ∃ c l, t.id2parts[j]? = some l ∧ id2obj TagPart.eq TagPart.lt c 0 = .ok l ∧
      PartTable s labels t.splitter name c := by
  obtain ⟨hsp, keys, ht⟩ := buildPosTable_spec h
  obtain ⟨counts, hc, hid⟩ := buildPosTable_counts h
  obtain ⟨sp1, sp2⟩ := split_parts hsp hno
  obtain ⟨keys', hi, hs', hk'⟩ := countParts_spec hc
  have hfst : (counter Token.optPosEq labels).map Prod.fst = firsts Token.optPosEq labels := by
    rw [counter_eq optPosEq_rel, List.map_map]
    exact List.map_id _
  rw [hfst] at hi hs'
  have hlne : ∃ p, p ∈ firsts Token.optPosEq labels := by
    cases hl : firsts Token.optPosEq labels with
    | cons p l => exact ⟨p, by simp⟩
    | nil =>
      rw [hl] at hfst
      rw [List.map_eq_nil_iff.1 hfst] at hc
      simp [countParts] at hc
  obtain ⟨p0, hp0⟩ := hlne
  obtain ⟨ps0, hps0⟩ := ht.splits p0 hp0
  have e1 : keys = partNames s labels := by rw [← ht.keys_eq _ _ hps0, sp1 _ _ hps0]
  have e2 : counts.keys = partNames s labels := by rw [hi.keys_eq, ← hk' _ _ hps0, sp1 _ _ hps0]
  have hjl : j < t.id2parts.length := by rw [ht.length, e1]; exact (List.getElem?_eq_some_iff.1 hj).1
  have hl := List.getElem?_eq_getElem hjl
  obtain ⟨c, hc1, hc2⟩ := hid j name _ (by rw [e2]; exact hj) hl
  have hval : ∀ p ps, t.splitter.split p = .ok ps → ∃ v, ps.get? name = some v := by
    intro p ps hps
    have : name ∈ ps.keys := by rw [sp1 p ps hps]; exact List.mem_of_getElem? hj
    exact Option.isSome_iff_exists.1 (Dict.get?_isSome.2 this)
  refine ⟨c, _, hl, hc2, hi.distinct _ c hc1, ?_, ?_, ?_⟩
  · intro y hy
    obtain ⟨p, hp, r⟩ := hi.from_labels _ c hc1 y hy
    exact ⟨p, firsts_mem hp, r⟩
  · intro p hp
    obtain ⟨p', hp', e⟩ := firsts_covers optPosEq_rel hp
    obtain ⟨ps', hps'⟩ := ht.splits p' hp'
    obtain ⟨ps, hps, _⟩ := split_congr (optPosEq_rel.symm _ _ e) hps'
    obtain ⟨v, hv⟩ := hval p ps hps
    obtain ⟨qs, hqs, hq⟩ := split_congr e hps
    obtain ⟨w, hw1, hw2⟩ := hq name v hv
    obtain ⟨y, hy, hyw⟩ := hi.covers _ c hc1 p' hp' qs hqs w hw1
    exact ⟨ps, v, hps, hv, y, hy, partEq_rel.trans _ _ _ hyw hw2⟩
  · intro p ps v hps hv
    rw [countParts_counts hc name v c hc1]
    unfold sharing
    refine List.countP_congr ?_
    intro q hq
    obtain ⟨q', hq', e⟩ := firsts_covers optPosEq_rel hq
    obtain ⟨qs', hqs'⟩ := ht.splits q' hq'
    obtain ⟨qs, hqs, _⟩ := split_congr (optPosEq_rel.symm _ _ e) hqs'
    obtain ⟨w, hw⟩ := hval q qs hqs
    have : partIs t.splitter name v q = TagPart.eq w v := by simp only [partIs, partValue, hqs, hw]
    rw [this, sp2 q p qs ps name w v hqs hps hw hv]

/-- C153: in every part of the tags the id 0 belongs to a value that no other value exceeds in frequency among the training words; it
is given to this value and to the values that do not occur in the training data, and to no others. -/
theorem C153_first (s : Splitting) (labels : List (Option Pos)) (t : PosTable)
    (h : buildPosTable s labels = .ok t) (hno : s = .gran → NoTagFeatures labels)
    (j : Nat) (name : Str) (hj : (partNames s labels)[j]? = some name) :
    ∃ m ∈ labels, (∀ q ∈ labels, sharing s name labels q ≤ sharing s name labels m) ∧
      ∀ p, s = .joint ∨ p ≠ none → ∃ ids, t.encode p = .ok ids ∧
        ids.length = (partNames s labels).length ∧
        (ids[j]? = some 0 ↔ samePart s name m p = true ∨ ∀ q ∈ labels, samePart s name q p = false) := by
  obtain ⟨hsp, keys, ht⟩ := buildPosTable_spec h
  obtain ⟨sp1, sp2⟩ := split_parts hsp hno
  obtain ⟨c, l, hl, hc, hpt⟩ := partTable h hno j name hj
  obtain ⟨b, rest, rfl, hb, hbm⟩ := id2obj_first partEq_rel hpt.distinct hc
  obtain ⟨m, hm, ms, hms, hmv⟩ := hpt.from_labels b hb
  have e1 : keys = partNames s labels := by rw [← ht.keys_eq _ _ hms, sp1 _ _ hms]
  refine ⟨m, hm, ?_, ?_⟩
  · intro q hq
    obtain ⟨qs, v, h1, h2, y, hy, hyv⟩ := hpt.covers q hq
    rw [← hpt.counts q qs v h1 h2, ← hpt.counts m ms b hms hmv]
    refine le_trans (le_of_eq ?_) (hbm y hy)
    unfold wsum
    congr 2
    funext e
    simp only [partEq_rel.congr_right hyv]
  · intro p hp
    obtain ⟨ps, hps⟩ := split_tagged hsp hp
    obtain ⟨ids, g1, g2, g3⟩ := encode_spec ht hps
    refine ⟨_, g1, by rw [List.length_map, g2, e1], ?_⟩
    have hjl : j < ids.length := by rw [g2, e1]; exact (List.getElem?_eq_some_iff.1 hj).1
    have hi := List.getElem?_eq_getElem hjl
    obtain ⟨v, hv1, hv2, hlt, hy⟩ := g3 j _ _ name hi hl (by rw [e1]; exact hj)
    rw [List.getElem?_map, hi]
    obtain ⟨hd, _⟩ := ht.distinct _ (List.mem_of_getElem? hl)
    have hid : ids[j] = (eqGet TagPart.eq v (obj2id TagPart.eq (b :: rest))).getD 0 := by
      have henc := g1
      simp only [PosTable.encode, hps] at henc
      rw [mapM'_zipIdx_ok] at henc
      have := henc.2 j v ids[j] hv2 (by rw [List.getElem?_map, hi]; rfl)
      have hp2 : t.parts2id[j]? = some (obj2id TagPart.eq (b :: rest)) := by
        rw [ht.inverse, List.getElem?_map, hl]; rfl
      simp only [encodePart, hp2, Except.ok.injEq, Nat.cast_inj] at this
      exact this.symm
    have hmem : (∃ y ∈ b :: rest, TagPart.eq y v = true) ↔ ∃ q ∈ labels, samePart s name q p = true := by
      obtain ⟨_, _, g⟩ := id2obj_zero partEq_rel hpt.distinct hc
      constructor
      · rintro ⟨y, hy, e⟩
        obtain ⟨q, hq, qs, hqs, hqv⟩ := hpt.from_labels y ((g y).1 hy)
        exact ⟨q, hq, by rw [← sp2 q p qs ps name y v hqs hps hqv hv1]; exact e⟩
      · rintro ⟨q, hq, e⟩
        obtain ⟨qs, w, hqs, hqv, y, hy, hyw⟩ := hpt.covers q hq
        rw [← sp2 q p qs ps name w v hqs hps hqv hv1] at e
        exact ⟨y, (g y).2 hy, partEq_rel.trans _ _ _ hyw e⟩
    have hbv : TagPart.eq b v = samePart s name m p := sp2 m p ms ps name b v hms hps hmv hv1
    simp only [Option.map_some, Option.some.injEq, Nat.cast_eq_zero]
    constructor
    · intro h0
      by_cases hs : ∃ q ∈ labels, samePart s name q p = true
      · left
        obtain ⟨y, hy1, hy2⟩ := hy (hmem.2 hs)
        rw [h0, List.getElem?_cons_zero] at hy1
        injection hy1 with hy1
        subst hy1
        rw [← hbv]; exact hy2
      · right
        intro q hq
        cases hsq : samePart s name q p with
        | false => rfl
        | true => exact absurd ⟨q, hq, hsq⟩ hs
    · rintro (hs | hs)
      · rw [← hbv] at hs
        rw [hid, (eqGet_obj2id partEq_rel hd v 0).2 ⟨b, rfl, hs⟩]
        rfl
      · rw [hid]
        cases hg : eqGet TagPart.eq v (obj2id TagPart.eq (b :: rest)) with
        | none => rfl
        | some i =>
          obtain ⟨y, hy1, hy2⟩ := (eqGet_obj2id partEq_rel hd v i).1 hg
          obtain ⟨q, hq, e⟩ := hmem.1 ⟨y, List.mem_of_getElem? hy1, hy2⟩
          rw [hs q hq] at e
          cases e

/-! ### the order of the training data -/

theorem makeSplitter_perm {s : Splitting} {labels labels' : List (Option Pos)} (hp : labels.Perm labels')
    {sp sp' : Splitter} (h : makeSplitter s (firsts Token.optPosEq labels) = .ok sp)
    (h' : makeSplitter s (firsts Token.optPosEq labels') = .ok sp') : sp = sp' := by
  cases s with
  | gran =>
    have g : ∀ labels sp, makeSplitter .gran labels = .ok sp → ∃ keys, sp = .gran keys := by
      intro labels sp hsp
      simp only [makeSplitter] at hsp
      split at hsp
      · cases hsp
      · injection hsp with hsp; exact ⟨_, hsp.symm⟩
    obtain ⟨k, rfl⟩ := g _ _ h
    obtain ⟨k', rfl⟩ := g _ _ h'
    rw [granKeys_eq h, granKeys_eq h']
    congr 1
    refine pySorted_eq_of_perm _ le_total (fun a b c => le_trans) (fun a b _ _ => le_antisymm) ?_
    exact (hp.flatMap_right _).dedup
  | _ =>
    simp only [makeSplitter, Except.ok.injEq] at h h'
    rw [← h, ← h']

theorem sharing_perm (s : Splitting) (name : Str) {labels labels' : List (Option Pos)} (hp : labels.Perm labels')
    (p : Option Pos) : sharing s name labels p = sharing s name labels' p := hp.countP_eq _

theorem partNames_perm (s : Splitting) {labels labels' : List (Option Pos)} (hp : labels.Perm labels') :
    partNames s labels = partNames s labels' := by
  cases s with
  | gran =>
    have : pySorted (· ≤ ·) (labels.flatMap (fun l => match l with | some p => p.feats.keys | none => [])).dedup =
        pySorted (· ≤ ·) (labels'.flatMap (fun l => match l with | some p => p.feats.keys | none => [])).dedup := ?_
    · simp only [partNames, this]
    refine pySorted_eq_of_perm _ le_total (fun a b c => le_trans) (fun a b _ _ => le_antisymm) ?_
    exact (hp.flatMap_right _).dedup
  | _ => rfl

/-- In every part of the tags one value is more frequent among the training words than every other value. -/
def ClearWinners (s : Splitting) (labels : List (Option Pos)) : Prop :=
  ∀ name ∈ partNames s labels, ∃ m ∈ labels, ∀ q ∈ labels, samePart s name q m = false →
    sharing s name labels q < sharing s name labels m

theorem tables_perm {s : Splitting} {labels labels' : List (Option Pos)} (hp : labels.Perm labels')
    {t t' : PosTable} (h : buildPosTable s labels = .ok t) (h' : buildPosTable s labels' = .ok t')
    (hu : Uniform s labels) (hno : s = .gran → NoTagFeatures labels) (hw : ClearWinners s labels) :
    t.splitter = t'.splitter ∧
      List.Forall₂ (List.Forall₂ (fun a b => TagPart.eq a b = true)) t.id2parts t'.id2parts := by
  have hno' : s = .gran → NoTagFeatures labels' := fun hg p hpl => hno hg p (hp.mem_iff.2 hpl)
  have hu' : Uniform s labels' := fun p q h1 h2 => hu p q (hp.mem_iff.2 h1) (hp.mem_iff.2 h2)
  obtain ⟨hsp, keys, ht⟩ := buildPosTable_spec h
  obtain ⟨hsp', keys', ht'⟩ := buildPosTable_spec h'
  have hss := makeSplitter_perm hp hsp hsp'
  obtain ⟨sp1, sp2⟩ := split_parts hsp hno
  obtain ⟨sp1', sp2'⟩ := split_parts hsp' hno'
  have hnn := partNames_perm s hp
  have hlen : ∀ {labels : List (Option Pos)} {t : PosTable} {keys : List Str},
      buildPosTable s labels = .ok t → TablesOK t keys (firsts Token.optPosEq labels) →
      (∀ p ps, t.splitter.split p = .ok ps → ps.keys = partNames s labels) →
      t.id2parts.length = (partNames s labels).length := by
    intro labels t keys h ht sp1
    have : ∃ p, p ∈ firsts Token.optPosEq labels := by
      cases hl : firsts Token.optPosEq labels with
      | cons p l => exact ⟨p, by simp⟩
      | nil =>
        exfalso
        cases labels with
        | nil => rw [(C45_not_built s).1] at h; cases h
        | cons p l => simp [firsts] at hl
    obtain ⟨p, hpm⟩ := this
    obtain ⟨ps, hps⟩ := ht.splits p hpm
    rw [ht.length, ← ht.keys_eq _ _ hps, sp1 _ _ hps]
  refine ⟨hss, ?_⟩
  rw [forall₂_getElem?]
  refine ⟨by rw [hlen h ht sp1, hlen h' ht' sp1', hnn], ?_⟩
  intro j l l' hl hl'
  have hjl : j < (partNames s labels).length := by
    rw [← hlen h ht sp1]; exact (List.getElem?_eq_some_iff.1 hl).1
  have hj := List.getElem?_eq_getElem hjl
  generalize hname : (partNames s labels)[j] = name at hj
  have hmem : name ∈ partNames s labels := List.mem_of_getElem? hj
  obtain ⟨c, l1, g1, g2, pt⟩ := partTable h hno j name hj
  obtain ⟨c', l1', g1', g2', pt'⟩ := partTable h' hno' j name (by rw [← hnn]; exact hj)
  rw [hl] at g1
  rw [hl'] at g1'
  injection g1 with g1
  injection g1' with g1'
  subst g1 g1'
  obtain ⟨m, hm, hmax⟩ := hw name hmem
  obtain ⟨ms, mv, hms, hmv, y, hy, hyv⟩ := pt.covers m hm
  have ordered : ∀ {labels0 labels : List (Option Pos)} {sp : Splitter} {c : List (TagPart × Nat)},
      makeSplitter s labels0 = .ok sp → Uniform s labels → PartTable s labels sp name c →
      OrderedBy TagPart.eq TagPart.lt (c.map Prod.fst) := by
    intro labels0 labels sp c hsp hu pt
    refine ⟨fun a _ b _ d _ => partLt_trans a b d, ?_⟩
    intro a ha b hb hne
    obtain ⟨p, hp, ps, h1, h2⟩ := pt.from_labels a ha
    obtain ⟨q, hq, qs, h3, h4⟩ := pt.from_labels b hb
    exact partLt_total a b (split_comparable hsp hu hp hq h1 h3 h2 h4) hne
  have cover : ∀ {labels labels' : List (Option Pos)} {sp : Splitter} {c c' : List (TagPart × Nat)},
      labels.Perm labels' → PartTable s labels sp name c → PartTable s labels' sp name c' →
      ∀ x ∈ c.map Prod.fst, ∃ y ∈ c'.map Prod.fst, TagPart.eq y x = true := by
    intro labels labels' sp c c' hp pt pt' x hx
    obtain ⟨p, hpm, ps, h1, h2⟩ := pt.from_labels x hx
    obtain ⟨ps', v, h3, h4, y, hy, e⟩ := pt'.covers p (hp.mem_iff.1 hpm)
    rw [h1] at h3
    injection h3 with h3
    subst h3
    rw [h2] at h4
    injection h4 with h4
    subst h4
    exact ⟨y, hy, e⟩
  rw [← hss] at pt'
  have cong : ∀ (c : List (TagPart × Nat)) a b, TagPart.eq a b = true →
      wsum (fun z => TagPart.eq z a) c = wsum (fun z => TagPart.eq z b) c := by
    intro c a b hab
    unfold wsum
    congr 2
    funext e
    simp only [partEq_rel.congr_right hab]
  have zero : ∀ (c : List (TagPart × Nat)) y, (∀ x ∈ c.map Prod.fst, TagPart.eq x y = false) →
      wsum (fun z => TagPart.eq z y) c = 0 := by
    intro c y hc
    induction c with
    | nil => rfl
    | cons g c ih =>
      rw [wsum_cons, hc g.1 (by simp), ih (fun x hx => hc x (by
        rw [List.map_cons]; exact List.mem_cons_of_mem _ hx))]
      simp
  refine id2obj_same partEq_rel partLt_congr_left partLt_congr_right partLt_asymm pt.distinct pt'.distinct
    (ordered hsp hu pt) (ordered hsp hu' pt') ?_ ?_ (cover hp.symm pt' pt) (m := y) hy ?_ g2 g2'
  · intro z
    by_cases hz : ∃ x ∈ c.map Prod.fst, TagPart.eq x z = true
    · obtain ⟨x, hx, e⟩ := hz
      obtain ⟨p, _, ps, h1, h2⟩ := pt.from_labels x hx
      rw [← cong c x z e, ← cong c' x z e, pt.counts p ps x h1 h2, pt'.counts p ps x h1 h2,
        sharing_perm s name hp]
    · have hz1 : ∀ x ∈ c.map Prod.fst, TagPart.eq x z = false := by
        intro x hx
        cases e : TagPart.eq x z with
        | false => rfl
        | true => exact absurd ⟨x, hx, e⟩ hz
      rw [zero c z hz1, zero c' z]
      intro x hx
      cases e : TagPart.eq x z with
      | false => rfl
      | true =>
        obtain ⟨w, hw1, hw2⟩ := cover hp.symm pt' pt x hx
        rw [← hz1 w hw1]
        exact (partEq_rel.trans _ _ _ hw2 e).symm
  · intro x hx
    obtain ⟨w, hw1, hw2⟩ := cover hp pt pt' x hx
    exact ⟨w, hw1, partEq_rel.symm _ _ hw2⟩
  · intro z hz hne
    obtain ⟨q, hq, qs, h1, h2⟩ := pt.from_labels z hz
    have e1 : samePart s name q m = false := by
      rw [← sp2 q m qs ms name z mv h1 hms h2 hmv, ← partEq_rel.congr_right hyv]
      exact hne
    have := hmax q hq e1
    rw [← pt.counts q qs z h1 h2, ← pt.counts m ms mv hms hmv, ← cong c y mv hyv] at this
    exact this

theorem mapM'_related {α β : Type} {f g : α → Res β} {R : β → β → Prop}
    (h : ∀ x y, f x = .ok y → ∃ y', g x = .ok y' ∧ R y' y) {l : List α} {ys : List β} (hl : mapM' f l = .ok ys) :
    ∃ ys', mapM' g l = .ok ys' ∧ List.Forall₂ R ys' ys := by
  induction l generalizing ys with
  | nil =>
    simp only [mapM', Except.ok.injEq] at hl
    subst hl
    exact ⟨[], rfl, .nil⟩
  | cons x l ih =>
    simp only [mapM'] at hl
    split at hl
    · cases hl
    · rename_i y hy
      split at hl
      · cases hl
      · rename_i r hr
        injection hl with hl
        subst hl
        obtain ⟨y', h1, h2⟩ := h x y hy
        obtain ⟨r', h3, h4⟩ := ih hr
        exact ⟨y' :: r', by simp only [mapM', h1, h3], .cons h2 h4⟩

/-- C153, what holds: if the training words come in another order, every tag gets the same ids and the same ids are
decoded to the same tag, provided in every part one value is more frequent than every other one (missing: ties,
see `C153_order_refuted`), all or no words have the tags that are compared, and with the granular splitting no
feature is named like a tag. -/
theorem C153_order_partial (s : Splitting) (labels labels' : List (Option Pos)) (hp : labels.Perm labels')
    (hne : labels ≠ []) (htag : s = .joint ∨ none ∉ labels) (hu : Uniform s labels)
    (hno : s = .gran → NoTagFeatures labels) (hw : ClearWinners s labels) :
    ∃ t t', buildPosTable s labels = .ok t ∧ buildPosTable s labels' = .ok t' ∧
      (∀ p, t.encode p = t'.encode p) ∧
      ∀ ids q, t.decode ids = .ok q → ∃ q', t'.decode ids = .ok q' ∧ Option.Rel SamePos q' q := by
  have hu' : Uniform s labels' := fun p q h1 h2 => hu p q (hp.mem_iff.2 h1) (hp.mem_iff.2 h2)
  obtain ⟨t, ht⟩ := C45_built s labels hne htag hu
  obtain ⟨t', ht'⟩ := C45_built s labels' (fun e => hne (by rw [e] at hp; exact hp.eq_nil))
    (htag.imp id (fun h e => h (hp.mem_iff.2 e))) hu'
  obtain ⟨h1, h2⟩ := tables_perm hp ht ht' hu hno hw
  obtain ⟨_, keys, ok⟩ := buildPosTable_spec ht
  obtain ⟨_, keys', ok'⟩ := buildPosTable_spec ht'
  rw [forall₂_getElem?] at h2
  obtain ⟨hlen, h2⟩ := h2
  refine ⟨t, t', ht, ht', ?_, ?_⟩
  · intro p
    unfold PosTable.encode
    rw [h1]
    cases t'.splitter.split p with
    | error e => rfl
    | ok parts =>
      have : encodePart t.parts2id = encodePart t'.parts2id := by
        funext e
        obtain ⟨v, j⟩ := e
        unfold encodePart
        simp only [ok.inverse, ok'.inverse, List.getElem?_map]
        cases hl : t.id2parts[j]? with
        | none =>
          have : t'.id2parts[j]? = none := by
            rw [List.getElem?_eq_none_iff] at hl ⊢
            omega
          rw [this]
        | some l =>
          have hj : j < t'.id2parts.length := hlen ▸ (List.getElem?_eq_some_iff.1 hl).1
          have hl' := List.getElem?_eq_getElem hj
          rw [hl']
          simp only [Option.map_some]
          rw [eqGet_same partEq_rel (ok.distinct _ (List.mem_of_getElem? hl)).1
            (ok'.distinct _ (List.mem_of_getElem? hl')).1 (h2 j _ _ hl hl') v]
      simp only [this]
  · intro ids q hq
    unfold PosTable.decode at hq ⊢
    split at hq
    · cases hq
    · rename_i ys hys
      have hys' : ∃ ys', mapM' (decodePart t'.id2parts) ids.zipIdx = .ok ys' ∧
          List.Forall₂ (fun a b => TagPart.eq a b = true) ys' ys := by
        refine mapM'_related ?_ hys
        rintro ⟨i, j⟩ y this
        simp only [decodePart] at this ⊢
        cases hl : t.id2parts[j]? with
        | none => rw [hl] at this; cases this
        | some l =>
          rw [hl] at this
          have hj : j < t'.id2parts.length := hlen ▸ (List.getElem?_eq_some_iff.1 hl).1
          have hl' := List.getElem?_eq_getElem hj
          rw [hl']
          have g := h2 j _ _ hl hl'
          rw [forall₂_getElem?] at g
          obtain ⟨g1, g2⟩ := g
          simp only at this ⊢
          unfold pyGet at this ⊢
          simp only at this ⊢
          rw [← g1]
          generalize (if i < 0 then i + (l.length : Int) else i) = k at this ⊢
          split at this
          · cases this
          · rename_i hk
            rw [if_neg hk]
            split at this
            · rename_i x hx
              injection this with this
              subst this
              have hkl : k.toNat < t'.id2parts[j].length := g1 ▸ (List.getElem?_eq_some_iff.1 hx).1
              have hx' := List.getElem?_eq_getElem hkl
              rw [hx']
              exact ⟨_, rfl, partEq_rel.symm _ _ (g2 _ _ _ hx hx')⟩
            · cases this
      obtain ⟨ys', h3, h4⟩ := hys'
      rw [h3]
      simp only
      rw [← h1]
      obtain ⟨q', h5, h6⟩ := combine_congr t.splitter ys' ys h4 q hq
      exact ⟨q', h5, optPosEq_iff.1 h6⟩

namespace Demo

/-- A tag without features. -/
def plainTag (u : Str) (x : Option Str) : Option Pos := some ⟨some u, x, .empty⟩

end Demo

/-- C153 is false if two values are equally frequent: for every splitting the ids then depend on which comes first. -/
theorem C153_order_refuted (s : Splitting) : ∃ labels labels' t t' p, labels.Perm labels' ∧
    Uniform s labels ∧ buildPosTable s labels = .ok t ∧ buildPosTable s labels' = .ok t' ∧
    t.encode p ≠ t'.encode p := by
  refine ⟨[Demo.plainTag ['A'] none, Demo.plainTag ['B'] none], [Demo.plainTag ['B'] none, Demo.plainTag ['A'] none],
    ?_⟩
  have hu : Uniform s [Demo.plainTag ['A'] none, Demo.plainTag ['B'] none] := by
    intro p q hp hq
    simp only [Demo.plainTag, List.mem_cons, List.not_mem_nil, or_false, Option.some.injEq] at hp hq
    rcases hp with rfl | rfl <;> rcases hq with rfl | rfl <;> simp
  cases s
  · exact ⟨_, _, Demo.plainTag ['A'] none, List.Perm.swap _ _ _, hu, rfl, rfl, by decide +kernel⟩
  · exact ⟨_, _, Demo.plainTag ['A'] none, List.Perm.swap _ _ _, hu, rfl, rfl, by decide +kernel⟩
  · exact ⟨_, _, Demo.plainTag ['A'] none, List.Perm.swap _ _ _, hu, rfl, rfl, by decide +kernel⟩
  · exact ⟨_, _, Demo.plainTag ['A'] none, List.Perm.swap _ _ _, hu, rfl, rfl, by decide +kernel⟩

/-- C153 is false if only some words have a language-specific tag: whether the labels can be built or comparing
tags raises a `TypeError` then depends on the order of the training words. -/
theorem C153_built_refuted : ∃ labels labels' t, labels.Perm labels' ∧
    buildPosTable .joint labels = .ok t ∧ buildPosTable .joint labels' = .error .type := by
  refine ⟨[Demo.plainTag ['B'] (some ['x']), Demo.plainTag ['A'] none, Demo.plainTag ['B'] none],
    [Demo.plainTag ['A'] none, Demo.plainTag ['B'] (some ['x']), Demo.plainTag ['B'] none], _,
    List.Perm.swap _ _ _, rfl, rfl⟩

/-- Non-vacuity of `C153_first` and `C153_order_partial`: three words, two of them nouns. -/
example : ClearWinners .joint [Demo.plainTag ['V'] none, Demo.plainTag ['N'] none, Demo.plainTag ['N'] none] ∧
    ClearWinners .uxf [Demo.plainTag ['V'] none, Demo.plainTag ['N'] none, Demo.plainTag ['N'] none] ∧
    ∃ t, buildPosTable .joint [Demo.plainTag ['V'] none, Demo.plainTag ['N'] none, Demo.plainTag ['N'] none] = .ok t ∧
      t.encode (Demo.plainTag ['N'] none) = .ok [0] ∧ t.encode (Demo.plainTag ['V'] none) = .ok [1] ∧
      t.encode (Demo.plainTag ['X'] none) = .ok [0] := by
  refine ⟨?_, ?_, _, rfl, by decide +kernel, by decide +kernel, by decide +kernel⟩
  · intro name hn
    exact ⟨Demo.plainTag ['N'] none, by decide +kernel, by revert name; decide +kernel⟩
  · intro name hn
    exact ⟨Demo.plainTag ['N'] none, by decide +kernel, by revert name; decide +kernel⟩

end Verif
