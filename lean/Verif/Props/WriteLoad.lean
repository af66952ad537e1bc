import Verif.Proofs.WriteLoad

/-!
# Properties C23 and C76: written documents can be evaluated
-/

namespace Verif

namespace Demo

def n0 : Token := { start := 0, stop := 1 }
def n1 : Token := { start := 2, stop := 3 }
def n2 : Token := { start := 4, stop := 5, headSent := some (-3) }

/-- "a b c": a sentence without heads and a sentence whose only token has head index -3. -/
def ndoc : Document :=
  { text := "a b c".toList
    tokens := [n0, n1, { n2 with headDoc := some (-1) }]
    sentences := [{ start := 0, stop := 2 }, { start := 2, stop := 3 }] }

theorem nbuilt : Document.new ndoc.text [n0, n1, n2] (some ndoc.sentences) true = .ok ndoc := by decide +kernel

theorem wdocLoadable : Loadable wdoc :=
  ⟨fun t ht => (wdocWritable.token t ht).plain, by decide +kernel, wdocEnds⟩

theorem ndocLoadable : Loadable ndoc := by
  refine ⟨?_, by decide +kernel, by decide +kernel⟩
  have h1 : ∀ t ∈ ndoc.tokens, Plain (tokText ndoc.text t) ∧ Plain (docText ndoc.text t) ∧ t.pos = none ∧
      t.lemma' = none ∧ t.deprel = none := by decide +kernel
  intro t ht
  obtain ⟨a1, a2, a3, a4, a5⟩ := h1 t ht
  exact ⟨a1, a2, by simp [a4], by simp [a5], by simp [a3], by simp [a3], by simp [a3]⟩

/-- The document `wdoc` without its heads. -/
def udoc : Document :=
  { wdoc with tokens := [{ w0 with headSent := none }, { w1 with headSent := none }, { w2 with headSent := none },
      { w3 with headSent := none }] }

theorem udocBuilt : Built udoc :=
  ⟨udoc.text, udoc.tokens, some udoc.sentences, true, by decide +kernel⟩

theorem udocLoadable : Loadable udoc := by
  refine ⟨?_, by decide +kernel, by decide +kernel⟩
  intro t ht
  have h : ∀ t ∈ udoc.tokens, ∃ u ∈ wdoc.tokens, tokText udoc.text t = tokText wdoc.text u ∧
      docText udoc.text t = docText wdoc.text u ∧ t.lemma' = u.lemma' ∧ t.deprel = u.deprel ∧ t.pos = u.pos := by
    decide +kernel
  obtain ⟨u, hu, h1, h2, h3, h4, h5⟩ := h t ht
  have p := (wdocWritable.token u hu).plain
  exact ⟨h1 ▸ p.form, h2 ▸ p.surface, h3 ▸ p.lemma', h4 ▸ p.deprel, h5 ▸ p.upos, h5 ▸ p.xpos, h5 ▸ p.feats⟩

end Demo
/-! ### C23 -/

/-- The HEAD numbers 0, 1, ..., n-1. -/
def leftChain (n : Nat) : List Int := (List.range n).map (fun i : Nat => (i : Int))

theorem leftChain_get {n i : Nat} (hi : i < n) : (leftChain n)[i]? = some (i : Int) := by
  unfold leftChain
  rw [List.getElem?_map, List.getElem?_range hi]; rfl

theorem leftChain_tree {n : Nat} (hn : 0 < n) : HeadTree (leftChain n) := by
  refine ⟨⟨0, leftChain_get hn, ?_⟩, ?_⟩
  · intro i hi
    have hlt := (List.getElem?_eq_some_iff.1 hi).1
    simp [leftChain] at hlt
    rw [leftChain_get hlt] at hi
    injection hi with hi
    omega
  · intro i hi
    simp [leftChain] at hi
    refine ⟨i, ?_⟩
    induction i with
    | zero => exact .root (leftChain_get hi)
    | succ i ih =>
      refine .step (h := i) ?_ (ih (by omega))
      rw [leftChain_get hi]; push_cast; rfl

/-- The recursion of the loader is never deeper than two calls on such a chain. -/
theorem leftChain_shallow (n : Nat) : Shallow 2 (leftChain n) := by
  intro i hi
  simp [leftChain] at hi
  cases i with
  | zero => exact ⟨0, by omega, .root (leftChain_get hi)⟩
  | succ i =>
    refine ⟨1, by omega, .step (h := i) ?_ (.seen (j := i) (by omega) (.refl i))⟩
    rw [leftChain_get hi]; push_cast; rfl

theorem writtenHeads_chain {cols : Cols} {toks : List Token}
    (h : colHEAD ∉ cols ∨ ∀ t ∈ toks, t.headSent = none) : writtenHeads cols 0 toks = leftChain toks.length := by
  apply List.ext_getElem?
  intro i
  rw [writtenHeads_get, Nat.zero_add]
  by_cases hi : i < toks.length
  · rw [leftChain_get hi, List.getElem?_eq_getElem hi]
    simp only [Option.map_some, Option.some.injEq]
    unfold writtenHead
    rcases h with h | h
    · rw [if_neg h]
    · rw [h _ (List.getElem_mem hi)]
      simp
  · rw [List.getElem?_eq_none (by omega), List.getElem?_eq_none (by simp [leftChain]; omega)]
    rfl

theorem sentence_pos {d : Document} (h : Built d) {s : Sentence} (hs : s ∈ d.sentences) :
    0 < (d.sentenceTokens s).length := by
  have h1 := h.docOk.stop_le hs
  have h2 := s.lt
  simp [Document.sentenceTokens]
  omega

/-- C23: documents without heads are written and the evaluation script loads the result, however long the
sentences are: every sentence has the HEADs 0, 1, 2, ...  The recursion never exceeds two calls. -/
theorem C23_unparsed_loads {columns : Cols} {docs : List Document} {depth : Nat} (hdepth : 2 ≤ depth)
    (hb : ∀ d ∈ docs, Built d) (hl : ∀ d ∈ docs, Loadable d)
    (hh : ∀ d ∈ docs, ∀ t ∈ d.tokens, t.headSent = none)
    (hf : ∀ d ∈ docs, ∀ t ∈ d.tokens, t.pos = none ∨ colFEATS ∈ columns) :
    ∃ out ud sents, writeToStr columns docs = .ok out ∧ loadConllu depth out = .ok ud ∧ UdOf sents ud ∧
      List.Forall₂ (fun (p : Str × List Token) us => HeadsOf (rowsOf us) (leftChain p.2.length) ∧
        LoadsAs (withHead columns) p.1 0 p.2 us) (sentencesOf docs) sents := by
  have hchain : ∀ p ∈ sentencesOf docs, writtenHeads (withHead columns) 0 p.2 = leftChain p.2.length ∧ 0 < p.2.length := by
    intro p hp
    obtain ⟨d, hd, hp⟩ := List.mem_flatMap.mp hp
    obtain ⟨s, hs, rfl⟩ := List.mem_map.mp hp
    exact ⟨writtenHeads_chain (.inr fun t ht => hh d hd t (sentence_token_mem ht)), sentence_pos (hb d hd) hs⟩
  obtain ⟨out, hout⟩ := writeToStr_total (columns := columns) hb (fun d hd t ht => by
    rcases hf d hd t ht with h | h
    · exact .inl h
    · exact .inr (by unfold withHead; split <;> simp [h]))
  obtain ⟨ud, sents, h1, h2, h3⟩ := write_load (depth := depth) hb hl (fun p hp => by
    rw [(hchain p hp).1]
    exact ⟨leftChain_tree (hchain p hp).2, (leftChain_shallow _).mono hdepth⟩) hout
  refine ⟨out, ud, sents, hout, h1, h2, ?_⟩
  rw [List.forall₂_iff_get] at h3 ⊢
  refine ⟨h3.1, fun i a b => ?_⟩
  have := h3.2 i a b
  refine ⟨?_, this⟩
  rw [← (hchain _ (List.get_mem _ _)).1]
  exact this.heads

/-- The hypotheses of C23 hold for a document with a multiword token and two sentences. -/
example : Built Demo.udoc ∧ Loadable Demo.udoc ∧ (∀ t ∈ Demo.udoc.tokens, t.headSent = none) ∧
    colFEATS ∈ defaultCols := ⟨Demo.udocBuilt, Demo.udocLoadable, by decide, by decide⟩

/-! ### C76 -/

theorem tree_heads {ts : List Token} {k : Nat} (h : IsTree ts) (hc : ∀ t ∈ ts, CanonHeads k t)
    (hr : ∀ t ∈ ts, ∀ v, t.headSent = some v → -1 ≤ v) {cols : Cols} (hcol : colHEAD ∈ cols) :
    HeadTree (writtenHeads cols 0 ts) := by
  have hget : ∀ (i : Nat) (t : Token) (v : Int), ts[i]? = some t → t.headSent = some v → (writtenHeads cols 0 ts)[i]? = some (v + 1) := by
    intro i t v hi hv
    rw [writtenHeads_get, hi]
    simp [writtenHead, hcol, hv]
  have hhead : ∀ t ∈ ts, t.isRoot = true → t.headSent = some (-1) := by
    intro t ht hroot
    unfold Token.isRoot at hroot
    simp only [Bool.or_eq_true, beq_iff_eq] at hroot
    rcases hroot with h1 | h1
    · rcases hc t ht with ⟨_, h2⟩ | ⟨h2, _⟩ | ⟨s, h2, h3⟩
      · rw [h1] at h2; cases h2
      · exact h2
      · rw [h1] at h3
        injection h3 with h3
        have := hr t ht s h2
        rw [h2]; congr 1; omega
    · exact h1
  have hreach : ∀ i, ReachesRoot ts i → ∃ n, Climbs (writtenHeads cols 0 ts) n i := by
    intro i hi
    induction hi with
    | root h1 h2 =>
      exact ⟨0, .root (hget _ _ _ h1 (hhead _ (List.mem_of_getElem? h1) h2))⟩
    | step h1 h2 h3 _ ih =>
      obtain ⟨n, hn⟩ := ih
      exact ⟨n + 1, .step (hget _ _ _ h1 h3) hn⟩
  have hzero : ∀ i : Nat, (writtenHeads cols 0 ts)[i]? = some 0 ↔ ∃ t, ts[i]? = some t ∧ t.isRoot = true := by
    intro i
    constructor
    · intro h0
      rw [writtenHeads_get, Option.map_eq_some_iff] at h0
      obtain ⟨t, ht, h0⟩ := h0
      refine ⟨t, ht, ?_⟩
      cases h.2 i (List.getElem?_eq_some_iff.1 ht).1 with
      | root h1 h2 => rw [ht] at h1; injection h1 with h1; rw [h1]; exact h2
      | step h1 h2 h3 _ =>
        rw [ht] at h1; injection h1 with h1; subst h1
        simp [writtenHead, hcol, h3] at h0
        omega
    · rintro ⟨t, ht, hroot⟩
      rw [hget i t _ ht (hhead t (List.mem_of_getElem? ht) hroot)]
      rfl
  refine ⟨?_, ?_⟩
  · obtain ⟨i, h1, h2⟩ := h.1
    exact ⟨i, (hzero i).2 h1, fun j hj => h2 j ((hzero j).1 hj)⟩
  · intro i hi
    rw [writtenHeads_length] at hi
    exact hreach i (h.2 i hi)

theorem BuiltValid.forest {d : Document} (h : BuiltValid d) :
    ∀ s ∈ d.sentences, Headless (d.sentenceTokens s) ∨ IsTree (d.sentenceTokens s) := by
  obtain ⟨text, tokens, sents, h⟩ := h
  exact (C07_validation_iff_forest.1 h).2

theorem valid_heads {d : Document} (h : BuiltValid d) (hr : ∀ t ∈ d.tokens, ∀ v, t.headSent = some v → -1 ≤ v)
    (cols : Cols) {s : Sentence} (hs : s ∈ d.sentences) {depth : Nat} (h2 : 2 ≤ depth)
    (hlen : s.stop - s.start ≤ depth) :
    HeadTree (writtenHeads cols 0 (d.sentenceTokens s)) ∧ Shallow depth (writtenHeads cols 0 (d.sentenceTokens s)) := by
  have hpos := sentence_pos h.built hs
  have hchain : colHEAD ∉ cols ∨ (∀ t ∈ d.sentenceTokens s, t.headSent = none) →
      HeadTree (writtenHeads cols 0 (d.sentenceTokens s)) ∧ Shallow depth (writtenHeads cols 0 (d.sentenceTokens s)) := by
    intro hc
    rw [writtenHeads_chain hc]
    exact ⟨leftChain_tree hpos, (leftChain_shallow _).mono h2⟩
  by_cases hc : colHEAD ∈ cols
  · rcases h.forest s hs with h1 | h1
    · exact hchain (.inr fun t ht => (h1 t ht).2)
    · have ht := tree_heads (k := s.start) h1 (h.built.docOk.canon_slice hs)
        (fun t ht => hr t (sentence_token_mem ht)) hc
      refine ⟨ht, ht.shallow.mono ?_⟩
      rw [writtenHeads_length]
      simp [Document.sentenceTokens]
      omega
  · exact hchain (.inl hc)

/-- C76: documents that passed syntax validation are written and loaded for evaluation, with any selection
of columns that includes FEATS, if no head index is below -1 and no sentence is longer than the recursion
limit. -/
theorem C76_valid_loads {columns : Cols} {docs : List Document} {depth : Nat} (h2 : 2 ≤ depth)
    (hb : ∀ d ∈ docs, BuiltValid d) (hl : ∀ d ∈ docs, Loadable d)
    (hr : ∀ d ∈ docs, ∀ t ∈ d.tokens, ∀ v, t.headSent = some v → -1 ≤ v)
    (hlen : ∀ d ∈ docs, ∀ s ∈ d.sentences, s.stop - s.start ≤ depth)
    (hf : ∀ d ∈ docs, ∀ t ∈ d.tokens, t.pos = none ∨ colFEATS ∈ columns) :
    ∃ out ud sents, writeToStr columns docs = .ok out ∧ loadConllu depth out = .ok ud ∧ UdOf sents ud ∧
      List.Forall₂ (fun (p : Str × List Token) us => LoadsAs (withHead columns) p.1 0 p.2 us) (sentencesOf docs) sents := by
  obtain ⟨out, hout⟩ := writeToStr_total (columns := columns) (fun d hd => (hb d hd).built) (fun d hd t ht => by
    rcases hf d hd t ht with h | h
    · exact .inl h
    · exact .inr (by unfold withHead; split <;> simp [h]))
  obtain ⟨ud, sents, h1, h2, h3⟩ := write_load (depth := depth) (fun d hd => (hb d hd).built) hl (fun p hp => by
    obtain ⟨d, hd, hp⟩ := List.mem_flatMap.mp hp
    obtain ⟨s, hs, rfl⟩ := List.mem_map.mp hp
    exact valid_heads (hb d hd) (hr d hd) _ hs h2 (hlen d hd s hs)) hout
  exact ⟨out, ud, sents, hout, h1, h2, h3⟩


/-- The condition on heads is needed: with the head index -3 in the second sentence, which starts at token
2, the document passes validation (-3 + 2 = -1 makes the token a root), but it is written with HEAD -2,
which the loader rejects. -/
theorem C76_heads_needed : BuiltValid Demo.ndoc ∧ Loadable Demo.ndoc ∧ ∃ out, writeToStr defaultCols [Demo.ndoc] = .ok out ∧
    ∀ depth, 2 ≤ depth → loadConllu depth out = .error .udError := by
  refine ⟨⟨_, _, _, Demo.nbuilt⟩, Demo.ndocLoadable, _, (by rfl : _ = Except.ok _), ?_⟩
  intro depth hd
  obtain ⟨d, rfl⟩ := Nat.exists_eq_add_of_le' hd
  rfl

/-- The hypotheses of C76 hold for a document with a multiword token and two sentences. -/
example : BuiltValid Demo.wdoc ∧ Loadable Demo.wdoc ∧ (∀ t ∈ Demo.wdoc.tokens, ∀ v, t.headSent = some v → -1 ≤ v) ∧
    (∀ s ∈ Demo.wdoc.sentences, s.stop - s.start ≤ 3) ∧ colFEATS ∈ defaultCols := by
  refine ⟨⟨_, _, _, Demo.wbuilt⟩, Demo.wdocLoadable, ?_, by decide, by decide⟩
  have : ∀ t ∈ Demo.wdoc.tokens, -1 ≤ t.headSent.getD 0 := by decide +kernel
  intro t ht v hv
  simpa [hv] using this t ht

end Verif
