import Verif.Proofs.UdSelf

/-!
# Properties C26 to C33, C66 and C67: evaluation of treebanks

`evaluate` is modelled by `evaluate`, its local function `align_words` by `alignWords`.
-/

namespace Verif

theorem Loaded.nonEmpty {ud : UD} (h : Loaded ud) : NonEmptySpans ud.words := by
  obtain ⟨d, t, h⟩ := h
  intro w hw
  exact (spansUp_of_tile (C25_spans_tile h).1).1.1 _ ((C25_words h).1 w hw).1

theorem Loaded.ordered {ud : UD} (h : Loaded ud) : ud.words.Pairwise WordBefore := by
  obtain ⟨d, t, h⟩ := h
  exact (C25_words h).2

theorem Loaded.parent {ud : UD} (h : Loaded ud) : ∀ w ∈ ud.words, w.parent = .none ∨ ∃ p, w.parent = .word p := by
  obtain ⟨d, t, h⟩ := h
  intro w hw
  rcases ((C25_words h).1 w hw).2.2 with e | ⟨p, _, e⟩
  · exact .inl e
  · exact .inr ⟨p, e⟩

theorem Loaded.parent_lt {ud : UD} (h : Loaded ud) : ∀ w ∈ ud.words, ∀ p, w.parent = .word p → p < ud.words.length := by
  obtain ⟨d, t, h⟩ := h
  intro w hw p hp
  rcases ((C25_words h).1 w hw).2.2 with e | ⟨q, hq, e⟩
  · rw [hp] at e; cases e
  · rw [hp] at e; injection e with e; omega

theorem Loaded.tokens {ud : UD} (h : Loaded ud) : SpansUp ud.tokens := by
  obtain ⟨d, t, h⟩ := h
  exact (spansUp_of_tile (C25_spans_tile h).1).1

theorem Loaded.sentences {ud : UD} (h : Loaded ud) : SpansUp ud.sentences := by
  obtain ⟨d, t, h⟩ := h
  exact (spansUp_of_tile (C25_spans_tile h).2).1

/-- What an evaluation consists of. -/
theorem evaluate_inv {lower : Str → Str} {gold sys : UD} {weights : Option (Dict Str Rat)} (hg : Loaded gold)
    (hs : Loaded sys) (hc : gold.characters = sys.characters) :
    ∃ pairs parts matched, alignWords lower gold.words sys.words = .ok pairs ∧
      AlignedBy lower gold.words sys.words parts pairs ∧
      List.Forall₂ (MatchedFor gold.words sys.words pairs) pairs matched ∧
      evaluate lower gold sys weights = .ok (metricsOf gold sys matched weights) := by
  obtain ⟨pairs, parts, h1, h2⟩ := alignWords_spec lower hg.nonEmpty hs.nonEmpty
  obtain ⟨matched, h3, h4⟩ := fillParents_spec h2.bounds
  refine ⟨pairs, parts, matched, h1, h2, h4, ?_⟩
  unfold evaluate
  rw [if_neg (by simpa using hc), h1]
  simp only
  rw [h3]

theorem evaluate_chars {lower : Str → Str} {gold sys : UD} {weights : Option (Dict Str Rat)} {m : Metrics}
    (h : evaluate lower gold sys weights = .ok m) : gold.characters = sys.characters := by
  unfold evaluate at h
  split at h
  · cases h
  · rename_i hc; simpa using hc

/-! ### C28 -/

/-- C28: evaluating two loaded treebanks gives all metrics if their characters agree, and `UDError`
otherwise; no other error and no non-termination (running out of fuel) is possible. -/
theorem C28_total {gold sys : UD} (lower : Str → Str) (weights : Option (Dict Str Rat)) (hg : Loaded gold) (hs : Loaded sys) :
    (gold.characters = sys.characters → ∃ m, evaluate lower gold sys weights = .ok m) ∧
    (gold.characters ≠ sys.characters → evaluate lower gold sys weights = .error .udError) := by
  constructor
  · intro hc
    obtain ⟨pairs, parts, matched, _, _, _, h⟩ := evaluate_inv (lower := lower) (weights := weights) hg hs hc
    exact ⟨_, h⟩
  · intro hc
    unfold evaluate
    rw [if_pos hc]

/-! ### C27 -/

/-- C27: the alignment is strictly increasing on both sides, so it is one-to-one and no longer than either
list of words. -/
theorem C27_monotone {gold sys : UD} (lower : Str → Str) (hg : Loaded gold) (hs : Loaded sys) :
    ∃ pairs, alignWords lower gold.words sys.words = .ok pairs ∧
      pairs.Pairwise (fun a b => a.1 < b.1 ∧ a.2 < b.2) ∧
      (∀ p ∈ pairs, p.1 < gold.words.length ∧ p.2 < sys.words.length) ∧
      pairs.length ≤ gold.words.length ∧ pairs.length ≤ sys.words.length := by
  obtain ⟨pairs, parts, h1, h2⟩ := alignWords_spec lower hg.nonEmpty hs.nonEmpty
  obtain ⟨matched, _, h4⟩ := fillParents_spec h2.bounds
  obtain ⟨s1, s2⟩ := matched_sublists h2.increasing h4
  have l1 := s1.length_le
  have l2 := s2.length_le
  rw [List.length_map, ← h4.length_eq] at l1 l2
  exact ⟨pairs, h1, h2.increasing, h2.bounds, l1, l2⟩

/-! ### C29, C30 -/

/-- C29 and C30: the alignment falls into consecutive parts.  A part is a pair of single words with equal
spans, or a multiword span in which as many words as possible with case-insensitively equal forms are
aligned.  Words of multi-word tokens outside of these parts come after the last word of the other side. -/
theorem C30_longest {gold sys : UD} (lower : Str → Str) (hg : Loaded gold) (hs : Loaded sys) :
    ∃ pairs parts, alignWords lower gold.words sys.words = .ok pairs ∧
      AlignedBy lower gold.words sys.words parts pairs :=
  alignWords_spec lower hg.nonEmpty hs.nonEmpty

/-- C30 for two arbitrary lists of words: within a span the number of aligned words is the length of a
longest common subsequence of the lower-cased forms. -/
theorem C30_span_length (lower : Str → Str) (gold sys : List UDWord) (gs ss gi si : Nat) :
    ∃ l, alignSpan lower gold sys gs ss gi si = .ok l ∧
      (∃ c : List Str, c.Sublist (lowerForms lower gold gs gi) ∧ c.Sublist (lowerForms lower sys ss si) ∧
        c.length = l.length) ∧
      ∀ c : List Str, c.Sublist (lowerForms lower gold gs gi) → c.Sublist (lowerForms lower sys ss si) →
        c.length ≤ l.length := by
  unfold alignSpan
  rw [← forms_eq, ← forms_eq]
  split
  · obtain ⟨l, h1, h2, h3, h4⟩ := lcsWalk_spec (forms lower gold gs gi) (forms lower sys ss si)
      ((forms lower gold gs gi).length + (forms lower sys ss si).length + 1) 0 0 (by omega)
    simp only [h1]
    simp only [List.drop_zero] at h4
    refine ⟨_, rfl, ?_, ?_⟩
    · obtain ⟨c, q1, q2, q3⟩ := lcsLen_attained _ (forms lower gold gs gi) (forms lower sys ss si) (Nat.le_refl _)
      exact ⟨c, q1, q2, by rw [List.length_map, h4, q3]⟩
    · intro c q1 q2
      rw [List.length_map, h4]
      exact lcsLen_bound _ _ _ _ (Nat.le_refl _) q1 q2
  · rename_i h
    refine ⟨[], rfl, ⟨[], by simp, by simp, rfl⟩, ?_⟩
    intro c q1 q2
    have l1 := q1.length_le
    have l2 := q2.length_le
    simp only [forms, slice, List.length_map, List.length_take, List.length_drop] at l1 l2
    simp only [List.length_nil]
    omega

/-- C29: an aligned pair consists of two words outside of multi-word tokens with identical spans, or of two
words with case-insensitively equal forms that lie in one multiword span. -/
theorem C29_compatible {gold sys : UD} (lower : Str → Str) (hg : Loaded gold) (hs : Loaded sys) {pairs : List (Nat × Nat)}
    (h : alignWords lower gold.words sys.words = .ok pairs) : ∀ q ∈ pairs, ∃ g s, gold.words[q.1]? = some g ∧
      sys.words[q.2]? = some s ∧
      ((g.multi = false ∧ s.multi = false ∧ g.span = s.span) ∨
       (lower (colOf g.columns colFORM) = lower (colOf s.columns colFORM) ∧
        ∃ p : Part, MultiPart lower gold.words sys.words p ∧ p.gs ≤ q.1 ∧ q.1 < p.gi ∧ p.ss ≤ q.2 ∧ q.2 < p.si)) := by
  obtain ⟨pairs', parts, h1, h2⟩ := alignWords_spec lower hg.nonEmpty hs.nonEmpty
  rw [h] at h1
  injection h1 with h1
  subst h1
  intro q hq
  rw [h2.pairs] at hq
  obtain ⟨p, hp, hq⟩ := List.mem_flatMap.1 hq
  rcases h2.each p hp with hsing | hmul
  · obtain ⟨e1, e2, e3, g, s, e4, e5, e6, e7, e8⟩ := hsing
    rw [e3] at hq
    rw [List.mem_singleton.1 hq]
    exact ⟨g, s, e4, e5, .inl ⟨e6, e7, e8⟩⟩
  · have hb := (part_pairs (.inr hmul)).2 q hq
    obtain ⟨b1, b2, b3, b4, b5, b6⟩ := hb
    obtain ⟨a1, a2, a3, a4, _, l, e5, e6⟩ := id hmul
    rw [e5] at hq
    obtain ⟨r, hr, rfl⟩ := List.mem_map.1 hq
    obtain ⟨x, hx, hy⟩ := e6.1.2 r hr
    refine ⟨gold.words[p.gs + r.1], sys.words[p.ss + r.2], by simp, by simp, .inr ⟨?_, p, hmul, b1, b2, b3, b4⟩⟩
    have key : ∀ (ws : List UDWord) (a b i : Nat) (hi : a + i < ws.length), (lowerForms lower ws a b)[i]? = some x →
        lower (colOf ws[a + i].columns colFORM) = x := by
      intro ws a b i hi h
      rw [lowerForms, List.getElem?_map, List.getElem?_drop, List.getElem?_take] at h
      split at h
      · rw [List.getElem?_eq_getElem hi] at h
        simpa using h
      · cases h
    rw [key gold.words _ _ _ b5 hx, key sys.words _ _ _ b6 hy]

/-! ### C33 -/

/-- C33: without multi-word tokens two words are aligned iff they have the same span. -/
theorem C33_span_matching {gold sys : UD} (lower : Str → Str) (hg : Loaded gold) (hs : Loaded sys)
    (mg : ∀ w ∈ gold.words, w.multi = false) (ms : ∀ w ∈ sys.words, w.multi = false) :
    ∃ pairs, alignWords lower gold.words sys.words = .ok pairs ∧ ∀ i j, (i, j) ∈ pairs ↔
      ∃ g s, gold.words[i]? = some g ∧ sys.words[j]? = some s ∧ g.span = s.span := by
  obtain ⟨pairs, parts, h1, h2⟩ := alignWords_spec lower hg.nonEmpty hs.nonEmpty
  refine ⟨pairs, h1, fun i j => ⟨?_, ?_⟩⟩
  · intro h
    obtain ⟨g, s, q1, q2, q3 | ⟨_, p, q3, _⟩⟩ := C29_compatible lower hg hs h1 _ h
    · exact ⟨g, s, q1, q2, q3.2.2⟩
    · exfalso
      obtain ⟨_, _, _, _, ⟨e, hm, _⟩, _⟩ := q3
      rcases hm with ⟨i, w, _, _, hw, hm, _⟩ | ⟨i, w, _, _, hw, hm, _⟩
      · rw [mg w (List.mem_of_getElem? hw)] at hm; cases hm
      · rw [ms w (List.mem_of_getElem? hw)] at hm; cases hm
  · rintro ⟨g, s, q1, q2, q3⟩
    exact alignLoop_complete lower hg.nonEmpty hs.nonEmpty hg.ordered hs.ordered mg ms _ 0 0 (by omega) pairs h1 i j g s
      (Nat.zero_le _) (Nat.zero_le _) q1 q2 q3

/-! ### C26 -/

/-- The number of elements of `a` that are also in `b`. -/
def common (a b : List Span) : Nat := (a.filter (fun x => decide (x ∈ b))).length

/-- C26: Tokens and Sentences count exactly the spans present in both files, each once. -/
theorem C26_common_spans {lower : Str → Str} {gold sys : UD} {weights : Option (Dict Str Rat)} {m : Metrics}
    (hg : Loaded gold) (hs : Loaded sys) (h : evaluate lower gold sys weights = .ok m) :
    IsScore m.tokens gold.tokens.length sys.tokens.length (common gold.tokens sys.tokens) none ∧
    IsScore m.sentences gold.sentences.length sys.sentences.length (common gold.sentences sys.sentences) none ∧
    gold.tokens.Nodup ∧ sys.tokens.Nodup ∧ gold.sentences.Nodup ∧ sys.sentences.Nodup := by
  obtain ⟨pairs, parts, matched, _, _, _, e⟩ := evaluate_inv (lower := lower) (weights := weights) hg hs (evaluate_chars h)
  rw [h] at e
  injection e with e
  subst e
  refine ⟨?_, ?_, hg.tokens.nodup, hs.tokens.nodup, hg.sentences.nodup, hs.sentences.nodup⟩
  · show IsScore (spansScore gold.tokens sys.tokens) _ _ _ _
    unfold spansScore
    rw [spansCorrect_eq hg.tokens hs.tokens (Nat.le_refl _)]
    exact isScore_new _ _ _ _
  · show IsScore (spansScore gold.sentences sys.sentences) _ _ _ _
    unfold spansScore
    rw [spansCorrect_eq hg.sentences hs.sentences (Nat.le_refl _)]
    exact isScore_new _ _ _ _

/-- C26: swapping gold and system swaps precision and recall of Tokens and Sentences. -/
theorem C26_swap {lower : Str → Str} {gold sys : UD} {weights : Option (Dict Str Rat)} {m m' : Metrics}
    (hg : Loaded gold) (hs : Loaded sys) (h : evaluate lower gold sys weights = .ok m)
    (h' : evaluate lower sys gold weights = .ok m') :
    (m.tokens.precision = m'.tokens.recall ∧ m.tokens.recall = m'.tokens.precision ∧ m.tokens.f1 = m'.tokens.f1) ∧
    (m.sentences.precision = m'.sentences.recall ∧ m.sentences.recall = m'.sentences.precision ∧
      m.sentences.f1 = m'.sentences.f1) := by
  obtain ⟨a1, a2, a3, a4, a5, a6⟩ := C26_common_spans hg hs h
  obtain ⟨b1, b2, _⟩ := C26_common_spans hs hg h'
  have c1 : common sys.tokens gold.tokens = common gold.tokens sys.tokens := common_comm a4 a3
  have c2 : common sys.sentences gold.sentences = common gold.sentences sys.sentences := common_comm a6 a5
  rw [c1] at b1
  rw [c2] at b2
  exact ⟨⟨by rw [a1.precision, b1.recall], by rw [a1.recall, b1.precision], by rw [a1.f1, b1.f1, add_comm]⟩,
    ⟨by rw [a2.precision, b2.recall], by rw [a2.recall, b2.precision], by rw [a2.f1, b2.f1, add_comm]⟩⟩

/-! ### C66 -/

theorem weightedLas_clas (w : UDWord) : weightedLas clasWeights w = clasWeight w := by
  unfold weightedLas clasWeight UDWord.col colOf
  generalize w.columns.getD colDEPREL [] = d
  have hn : (([("aux", (0:Rat)), ("case", 0), ("cc", 0), ("clf", 0), ("cop", 0), ("det", 0), ("mark", 0),
    ("punct", 0)].map (fun p => (p.1.toList, p.2))).map Prod.fst).Nodup := by decide +kernel
  have he := Dict.ofList_entries _ hn
  by_cases hd : d ∈ ["aux", "case", "cc", "clf", "cop", "det", "mark", "punct"].map String.toList
  · rw [if_pos hd]
    have : clasWeights.get? d = some 0 := by
      rw [Dict.get?_mem]
      show _ ∈ (Dict.ofList _).entries
      rw [he]
      obtain ⟨x, hx, rfl⟩ := List.mem_map.1 hd
      exact List.mem_map.2 ⟨(x, 0), by simpa using hx, rfl⟩
    rw [this]; rfl
  · rw [if_neg hd]
    have : clasWeights.get? d = none := by
      rw [Dict.get?_none]
      show _ ∉ (Dict.ofList _).entries.map Prod.fst
      rw [he]
      intro h
      apply hd
      obtain ⟨x, hx, rfl⟩ := List.mem_map.1 h
      obtain ⟨y, hy, rfl⟩ := List.mem_map.1 hx
      exact List.mem_map.2 ⟨y.1, by simp at hy ⊢; rcases hy with h | h | h | h | h | h | h | h <;> simp [h], rfl⟩
    rw [this]; rfl

/-- The sum of weights over words. -/
def wordsWeight (wt : UDWord → Rat) (ws : List UDWord) : Rat := (ws.map wt).sum

theorem goldWeight_one {gold sys : List UDWord} {P : UDWord → UDWord → Prop} (pairs : List (Nat × Nat)) :
    goldWeight unitWeight gold (pairsSat gold sys P pairs) = (pairsSat gold sys P pairs).length := by
  have h : ∀ p ∈ pairsSat gold sys P pairs, ∃ w, gold[p.1]? = some w := by
    intro p hp
    obtain ⟨_, h⟩ := List.mem_filter.1 hp
    have h : PairSat gold sys P p := by simpa using h
    obtain ⟨g, _, h, _⟩ := h
    exact ⟨g, h⟩
  generalize pairsSat gold sys P pairs = l at h ⊢
  induction l with
  | nil => simp [goldWeight]
  | cons p l ih =>
    obtain ⟨w, hw⟩ := h p (by simp)
    have := ih (fun q hq => h q (by simp [hq]))
    unfold goldWeight at this ⊢
    simp only [List.map_cons, List.sum_cons, this, hw, unitWeight, Option.map_some, Option.getD_some, List.length_cons]
    push_cast
    exact add_comm _ _

/-- C66: the scores count exactly the aligned pairs that agree in what the metric is about.  The pairs are
those described by C27, C29 and C30. -/
theorem C66_counts {lower : Str → Str} {gold sys : UD} {weights : Option (Dict Str Rat)} {m : Metrics}
    (hg : Loaded gold) (hs : Loaded sys) (h : evaluate lower gold sys weights = .ok m) :
    ∃ pairs parts, alignWords lower gold.words sys.words = .ok pairs ∧
      AlignedBy lower gold.words sys.words parts pairs ∧
      IsScore m.words gold.words.length sys.words.length pairs.length none ∧
      (∀ cols s, (cols, s) ∈ [([colUPOS], m.upos), ([colXPOS], m.xpos), ([colFEATS], m.feats),
          ([colUPOS, colXPOS, colFEATS], m.allTags), ([colLEMMA], m.lemmas)] →
        IsScore s gold.words.length sys.words.length
          (pairsSat gold.words sys.words (ColsAgree cols) pairs).length (some pairs.length)) ∧
      IsScore m.uas gold.words.length sys.words.length
        (pairsSat gold.words sys.words (HeadsAgree pairs) pairs).length (some pairs.length) ∧
      IsScore m.las gold.words.length sys.words.length
        (pairsSat gold.words sys.words (fun g s => HeadsAgree pairs g s ∧ ColsAgree [colDEPREL] g s) pairs).length
        (some pairs.length) ∧
      IsScore m.clas (wordsWeight clasWeight gold.words) (wordsWeight clasWeight sys.words)
        (goldWeight clasWeight gold.words
          (pairsSat gold.words sys.words (fun g s => HeadsAgree pairs g s ∧ ColsAgree [colDEPREL] g s) pairs))
        (some (goldWeight clasWeight gold.words pairs)) ∧
      (weights = none → m.weighted = none) ∧
      (∀ ws, weights = some ws → ∃ s, m.weighted = some s ∧
        IsScore s (wordsWeight (tableWeight ws) gold.words) (wordsWeight (tableWeight ws) sys.words)
        (goldWeight (tableWeight ws) gold.words
          (pairsSat gold.words sys.words (fun g s => HeadsAgree pairs g s ∧ ColsAgree [colDEPREL] g s) pairs))
        (some (goldWeight (tableWeight ws) gold.words pairs))) := by
  obtain ⟨pairs, parts, matched, h1, h2, h3, e⟩ :=
    evaluate_inv (lower := lower) (weights := weights) hg hs (evaluate_chars h)
  rw [h] at e
  injection e with e
  subst e
  have hlen : matched.length = pairs.length := h3.length_eq.symm
  have hone : ∀ l : List UDWord, totalWeight unitWeight l = l.length := totalWeight_one
  have key : ∀ {κ : Type} [DecidableEq κ] (k : UDWord → Par → κ) (P : UDWord → UDWord → Prop) (wt : UDWord → Rat),
      (∀ g ∈ gold.words, ∀ s ∈ sys.words, k g (goldParent g.parent) = k s (sysParent pairs s.parent) ↔ P g s) →
      IsScore (keyScore gold.words sys.words matched k wt) (wordsWeight wt gold.words) (wordsWeight wt sys.words)
        (goldWeight wt gold.words (pairsSat gold.words sys.words P pairs)) (some (goldWeight wt gold.words pairs)) := by
    intro κ _ k P wt hP
    unfold keyScore
    rw [goldWeight_filter wt hP h3, goldWeight_eq wt h3]
    exact isScore_new _ _ _ _
  have key1 : ∀ {κ : Type} [DecidableEq κ] (k : UDWord → Par → κ) (P : UDWord → UDWord → Prop),
      (∀ g ∈ gold.words, ∀ s ∈ sys.words, k g (goldParent g.parent) = k s (sysParent pairs s.parent) ↔ P g s) →
      IsScore (keyScore gold.words sys.words matched k unitWeight) gold.words.length sys.words.length
        (pairsSat gold.words sys.words P pairs).length (some pairs.length) := by
    intro κ _ k P hP
    have := key k P unitWeight hP
    rw [goldWeight_one, ← goldWeight_eq (sys := sys.words) (ps := pairs) _ h3, hone, List.length_map, hlen] at this
    rwa [show ∀ l, wordsWeight unitWeight l = l.length from hone, show ∀ l, wordsWeight unitWeight l = l.length from hone]
      at this
  have heads : ∀ g ∈ gold.words, ∀ s ∈ sys.words,
      goldParent g.parent = sysParent pairs s.parent ↔ HeadsAgree pairs g s := by
    intro g hgm s hsm
    exact parents_agree h2.increasing (hg.parent g hgm) (hs.parent s hsm)
  have las : ∀ g ∈ gold.words, ∀ s ∈ sys.words,
      lasKey g (goldParent g.parent) = lasKey s (sysParent pairs s.parent) ↔
        HeadsAgree pairs g s ∧ ColsAgree [colDEPREL] g s := by
    intro g hgm s hsm
    rw [lasKey, lasKey, Prod.mk.injEq, heads g hgm s hsm]
    simp [ColsAgree, UDWord.col]
  refine ⟨pairs, parts, h1, h2, ?_, ?_, ?_, ?_, ?_, ?_, ?_⟩
  · show IsScore (wordsScore _ _ _ _) _ _ _ _
    unfold wordsScore
    rw [hone, hone, hone, List.length_map, hlen]
    exact isScore_new _ _ _ _
  · intro cols s hm
    simp only [List.mem_cons, Prod.mk.injEq, List.not_mem_nil, or_false] at hm
    have hcol : ∀ c, ∀ g ∈ gold.words, ∀ s ∈ sys.words, colKey c g (goldParent g.parent) =
        colKey c s (sysParent pairs s.parent) ↔ ColsAgree [c] g s := by
      intro c g _ s _
      simp [ColsAgree, UDWord.col, colKey]
    rcases hm with ⟨rfl, rfl⟩ | ⟨rfl, rfl⟩ | ⟨rfl, rfl⟩ | ⟨rfl, rfl⟩ | ⟨rfl, rfl⟩
    · exact key1 (colKey colUPOS) _ (hcol colUPOS)
    · exact key1 (colKey colXPOS) _ (hcol colXPOS)
    · exact key1 (colKey colFEATS) _ (hcol colFEATS)
    · refine key1 tagsKey _ ?_
      intro g _ s _
      simp [ColsAgree, UDWord.col, tagsKey]
    · exact key1 (colKey colLEMMA) _ (hcol colLEMMA)
  · exact key1 uasKey _ heads
  · exact key1 lasKey _ las
  · have := key lasKey _ clasWeight las
    show IsScore (keyScore gold.words sys.words matched lasKey (weightedLas clasWeights)) _ _ _ _
    rw [show weightedLas clasWeights = clasWeight from funext weightedLas_clas]
    exact this
  · rintro rfl; rfl
  · rintro ws rfl
    exact ⟨_, rfl, key lasKey _ (tableWeight ws) las⟩

/-! ### C31 -/

/-- C31: a treebank evaluated against itself gets a perfect score in every metric with a non-zero total. -/
theorem C31_self {ud : UD} (lower : Str → Str) (weights : Option (Dict Str Rat)) (h : Loaded ud) :
    ∃ m, evaluate lower ud ud weights = .ok m ∧
      (ud.tokens ≠ [] → Perfect false m.tokens) ∧ (ud.sentences ≠ [] → Perfect false m.sentences) ∧
      (ud.words ≠ [] → Perfect false m.words ∧
        ∀ s ∈ [m.upos, m.xpos, m.feats, m.allTags, m.lemmas, m.uas, m.las], Perfect true s) ∧
      ((∃ w ∈ ud.words, clasWeight w ≠ 0) → Perfect true m.clas) ∧
      (∀ ws, weights = some ws → wordsWeight (tableWeight ws) ud.words ≠ 0 →
        ∃ s, m.weighted = some s ∧ Perfect true s) := by
  have hself := alignWords_self lower h.nonEmpty h.ordered
  obtain ⟨pairs, parts, matched, h1, h2, h3, h4⟩ := evaluate_inv (lower := lower) (weights := weights) h h rfl
  rw [hself] at h1
  injection h1 with h1
  subst h1
  have hpar : ∀ a ∈ matched, a.gold = a.sys ∧ a.goldPar = a.sysPar := by
    intro a ha
    obtain ⟨i, hi, rfl⟩ := List.getElem_of_mem ha
    rw [List.forall₂_iff_get] at h3
    have hq := h3.2 i (by rw [h3.1]; exact hi) hi
    obtain ⟨q1, q2, q3, q4⟩ := hq
    simp only [List.get_eq_getElem, List.getElem_map, List.getElem_range] at q1 q2 q3 q4
    have heq : matched[i].gold = matched[i].sys := Option.some.inj (q1.symm.trans q2)
    refine ⟨heq, ?_⟩
    rw [q3, q4, ← heq]
    have hmem := List.mem_of_getElem? q1
    rcases h.parent _ hmem with e | ⟨p, e⟩
    · rw [e]; rfl
    · rw [e]
      have hlt := h.parent_lt _ hmem p e
      exact ((sysParent_word h2.increasing p p).2 (List.mem_map.2 ⟨p, List.mem_range.2 hlt, rfl⟩)).symm
  have hgold : matched.map AWord.gold = ud.words := by
    apply List.Sublist.eq_of_length (matched_sublists h2.increasing h3).1
    rw [List.length_map, ← h3.length_eq]
    simp
  have key : ∀ {κ : Type} [DecidableEq κ] (k : UDWord → Par → κ) (wt : UDWord → Rat), totalWeight wt ud.words ≠ 0 →
      Perfect true (keyScore ud.words ud.words matched k wt) := by
    intro κ _ k wt hw
    unfold keyScore
    rw [List.filter_eq_self.2 (by
      intro a ha
      obtain ⟨e1, e2⟩ := hpar a ha
      rw [e1, e2]
      simp), hgold]
    obtain ⟨p1, p2, p3, _⟩ := Score.new_self hw (some (totalWeight wt ud.words)) (.inr rfl)
    refine ⟨p1, p2, p3, ?_⟩
    simp [Score.new, hw]
  have hspans : ∀ l : List Span, SpansUp l → l ≠ [] → Perfect false (spansScore l l) := by
    intro l hl hne
    unfold spansScore
    rw [spansCorrect_eq hl hl (Nat.le_refl _), List.filter_eq_self.2 (by simp)]
    have hn : (l.length : Rat) ≠ 0 := by
      have := List.length_pos_iff.2 hne
      exact_mod_cast (by omega : l.length ≠ 0)
    obtain ⟨p1, p2, p3, _⟩ := Score.new_self hn none (.inl rfl)
    exact ⟨p1, p2, p3, rfl⟩
  have hone : ud.words ≠ [] → totalWeight unitWeight ud.words ≠ 0 := by
    intro hne
    rw [totalWeight_one]
    have := List.length_pos_iff.2 hne
    exact_mod_cast (by omega : ud.words.length ≠ 0)
  refine ⟨_, h4, hspans _ h.tokens, hspans _ h.sentences, ?_, ?_, ?_⟩
  · intro hne
    refine ⟨?_, ?_⟩
    · show Perfect false (wordsScore _ _ _ _)
      unfold wordsScore
      rw [hgold]
      obtain ⟨p1, p2, p3, _⟩ := Score.new_self (hone hne) none (.inl rfl)
      exact ⟨p1, p2, p3, rfl⟩
    · intro s hs
      simp only [List.mem_cons, List.not_mem_nil, or_false] at hs
      rcases hs with rfl | rfl | rfl | rfl | rfl | rfl | rfl
      · exact key (colKey colUPOS) _ (hone hne)
      · exact key (colKey colXPOS) _ (hone hne)
      · exact key (colKey colFEATS) _ (hone hne)
      · exact key tagsKey _ (hone hne)
      · exact key (colKey colLEMMA) _ (hone hne)
      · exact key uasKey _ (hone hne)
      · exact key lasKey _ (hone hne)
  · rintro ⟨w, hw, hne⟩
    refine key lasKey _ ?_
    rw [show weightedLas clasWeights = clasWeight from funext weightedLas_clas]
    have hnn : ∀ w, 0 ≤ clasWeight w := by intro w; unfold clasWeight; split <;> decide
    have h1 : totalWeight clasWeight [w] ≤ totalWeight clasWeight ud.words :=
      totalWeight_sublist hnn (List.singleton_sublist.2 hw)
    have h2 : 0 < clasWeight w := lt_of_le_of_ne (hnn w) (Ne.symm hne)
    simp only [totalWeight, List.map_cons, List.map_nil, List.sum_cons, List.sum_nil, add_zero] at h1
    exact ne_of_gt (lt_of_lt_of_le h2 h1)
  · rintro ws rfl hne
    exact ⟨_, rfl, key lasKey _ hne⟩

/-! ### C32 -/

/-- C32: with non-negative weights all scores are bounded, and F1 lies between precision and recall. -/
theorem C32_bounded {lower : Str → Str} {gold sys : UD} {weights : Option (Dict Str Rat)} {m : Metrics}
    (hg : Loaded gold) (hs : Loaded sys) (h : evaluate lower gold sys weights = .ok m)
    (hw : ∀ ws, weights = some ws → ∀ e ∈ ws.entries, 0 ≤ e.2) : ∀ s ∈ m.scores, ScoreBounded s := by
  obtain ⟨pairs, parts, matched, h1, h2, h3, e⟩ :=
    evaluate_inv (lower := lower) (weights := weights) hg hs (evaluate_chars h)
  rw [h] at e
  injection e with e
  subst e
  obtain ⟨s1, s2⟩ := matched_sublists h2.increasing h3
  have hspans : ∀ a b : List Span, SpansUp a → SpansUp b → ScoreBounded (spansScore a b) := by
    intro a b ha hb
    unfold spansScore
    rw [spansCorrect_eq ha hb (Nat.le_refl _)]
    refine Score.new_bounded (by exact_mod_cast Nat.zero_le _) ?_ ?_ (by simp)
    · exact_mod_cast List.length_filter_le _ _
    · rw [common_comm ha.nodup hb.nodup]
      exact_mod_cast List.length_filter_le _ _
  have hone := unitWeight_nonneg
  have hlas : ∀ ws : Dict Str Rat, (∀ e ∈ ws.entries, 0 ≤ e.2) → ∀ w, 0 ≤ weightedLas ws w := by
    intro ws hws w
    unfold weightedLas
    cases he : ws.get? (w.col colDEPREL) with
    | none => decide
    | some x => exact hws _ (Dict.get?_mem.1 he)
  have hkey : ∀ (ws : Dict Str Rat) (g : UDWord) (p : Par) (s : UDWord) (q : Par),
      lasKey g p = lasKey s q → weightedLas ws g = weightedLas ws s := by
    intro ws g p s q he
    unfold weightedLas
    rw [(Prod.mk.inj he).2]
  intro s hsc
  simp only [Metrics.scores, List.cons_append, List.nil_append, List.mem_cons] at hsc
  rcases hsc with rfl | rfl | rfl | rfl | rfl | rfl | rfl | rfl | rfl | rfl | rfl | hsc
  · exact hspans _ _ hg.tokens hs.tokens
  · exact hspans _ _ hg.sentences hs.sentences
  · exact wordsScore_bounded s1 s2
  · exact keyScore_bounded (key := colKey colUPOS) hone (fun _ _ _ _ _ => rfl) s1 s2
  · exact keyScore_bounded (key := colKey colXPOS) hone (fun _ _ _ _ _ => rfl) s1 s2
  · exact keyScore_bounded (key := colKey colFEATS) hone (fun _ _ _ _ _ => rfl) s1 s2
  · exact keyScore_bounded (key := tagsKey) hone (fun _ _ _ _ _ => rfl) s1 s2
  · exact keyScore_bounded (key := colKey colLEMMA) hone (fun _ _ _ _ _ => rfl) s1 s2
  · exact keyScore_bounded (key := uasKey) hone (fun _ _ _ _ _ => rfl) s1 s2
  · exact keyScore_bounded (key := lasKey) hone (fun _ _ _ _ _ => rfl) s1 s2
  · refine keyScore_bounded (key := lasKey) ?_ (hkey _) s1 s2
    intro w
    rw [weightedLas_clas]
    unfold clasWeight
    split <;> decide
  · cases weights with
    | none => simp [metricsOf] at hsc
    | some ws =>
      simp only [metricsOf, Option.map_some, Option.toList_some, List.mem_singleton] at hsc
      subst hsc
      exact keyScore_bounded (key := lasKey) (hlas ws (hw ws rfl)) (hkey ws) s1 s2

/-- C32: AllTags is at most UPOS, XPOS and Feats, these are at most Words, and LAS is at most UAS and UAS at
most Words: in precision, recall and F1 (which have the same denominators). -/
theorem C32_ordered {lower : Str → Str} {gold sys : UD} {weights : Option (Dict Str Rat)} {m : Metrics}
    (hg : Loaded gold) (hs : Loaded sys) (h : evaluate lower gold sys weights = .ok m) :
    (ScoreLe m.allTags m.upos ∧ ScoreLe m.allTags m.xpos ∧ ScoreLe m.allTags m.feats) ∧
    (ScoreLe m.upos m.words ∧ ScoreLe m.xpos m.words ∧ ScoreLe m.feats m.words ∧ ScoreLe m.lemmas m.words) ∧
    ScoreLe m.las m.uas ∧ ScoreLe m.uas m.words := by
  obtain ⟨pairs, parts, matched, h1, h2, h3, e⟩ :=
    evaluate_inv (lower := lower) (weights := weights) hg hs (evaluate_chars h)
  rw [h] at e
  injection e with e
  subst e
  have hone := unitWeight_nonneg
  refine ⟨⟨?_, ?_, ?_⟩, ⟨?_, ?_, ?_, ?_⟩, ?_, ?_⟩
  · exact keyScore_le (key := tagsKey) (key' := colKey colUPOS) hone (fun g p s q h => (Prod.mk.inj h).1)
  · exact keyScore_le (key := tagsKey) (key' := colKey colXPOS) hone (fun g p s q h => (Prod.mk.inj (Prod.mk.inj h).2).1)
  · exact keyScore_le (key := tagsKey) (key' := colKey colFEATS) hone (fun g p s q h => (Prod.mk.inj (Prod.mk.inj h).2).2)
  · exact keyScore_le_words (key := colKey colUPOS) hone
  · exact keyScore_le_words (key := colKey colXPOS) hone
  · exact keyScore_le_words (key := colKey colFEATS) hone
  · exact keyScore_le_words (key := colKey colLEMMA) hone
  · exact keyScore_le (key := lasKey) (key' := uasKey) hone (fun g p s q h => (Prod.mk.inj h).1)
  · exact keyScore_le_words (key := uasKey) hone

/-! ### Examples -/

namespace Demo

/-- The same characters as `udText`, tokenised as "a", "b", "cd" without a multi-word token and with another
tree. -/
def udText2 : Str :=
  "1\ta\t_\tX\t_\t_\t0\troot\t_\t_\n2\tb\t_\tZ\t_\t_\t1\tobj\t_\t_\n3\tcd\t_\tX\t_\t_\t1\tcase\t_\t_\n\n".toList

def udLoaded2 : UD :=
  { characters := "abcd".toList
    tokens := [⟨0, 1⟩, ⟨1, 2⟩, ⟨2, 4⟩]
    words := [⟨⟨0, 1⟩, row "1" "a" "X" "0" "root", false, .none⟩, ⟨⟨1, 2⟩, row "2" "b" "Z" "1" "obj", false, .word 0⟩,
      ⟨⟨2, 4⟩, row "3" "cd" "X" "1" "case", false, .word 0⟩]
    sentences := [⟨0, 4⟩] }

theorem udLoads2 : loadConllu 10 udText2 = .ok udLoaded2 := by decide +kernel

end Demo

/-- The hypotheses of the theorems above are met by a pair of treebanks with a multi-word token on one side.
All words are aligned, two of three have the same UPOS, none has the same head. -/
example : Loaded Demo.udLoaded ∧ Loaded Demo.udLoaded2 ∧ Demo.udLoaded.characters = Demo.udLoaded2.characters ∧
    alignWords id Demo.udLoaded.words Demo.udLoaded2.words = .ok [(0, 0), (1, 1), (2, 2)] ∧
    ((evaluate id Demo.udLoaded Demo.udLoaded2 none).toOption.map (fun m => (m.tokens.recall, m.words.recall,
      m.upos.recall, m.uas.recall))) = some (1/2, 1, 2/3, 0) :=
  ⟨⟨_, _, Demo.udLoads⟩, ⟨_, _, Demo.udLoads2⟩, by decide +kernel, by decide +kernel, by decide +kernel⟩

/-- The hypotheses of `C33_span_matching` are met. -/
example : Loaded Demo.udLoaded2 ∧ ∀ w ∈ Demo.udLoaded2.words, w.multi = false :=
  ⟨⟨_, _, Demo.udLoads2⟩, by decide⟩

end Verif
