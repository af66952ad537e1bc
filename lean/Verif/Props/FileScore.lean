import Verif.Model.Evaluation
import Verif.Props.Score
import Verif.Proofs.FileOracle

/-! # Properties C110 and C111: scores on a gold file, scores of parsers -/

namespace Verif

/-! ### C110 -/

/-- C110: the words shown to the tagger are the words that are evaluated.  If a text is accepted by the
reader and by the loader of the evaluation, and no comment line has ten columns, then the loaded sentences
are the sentences of the documents, in order, with one row for each word. -/
theorem C110_same_words {limit : Int} {text : Str} {docs : List Document} {depth : Nat} {ud : UD} (hr : '\r' ∉ text)
    (hc : CommentsPlain text) (h1 : readFromStr limit defaultCols text = .ok (docs, none))
    (h2 : loadConllu depth text = .ok ud) : ∃ sents, UdSents (udFileLines text) sents ∧ UdOf sents ud ∧
      List.Forall₂ (fun (p : Str × List Token) us => TokensAs (FileRow p.1) p.1 0 p.2 us) (sentencesOf docs) sents :=
  read_load hr hc h1 h2

theorem read_builtValid {limit : Int} {columns : Cols} {text : Str} {docs : List Document}
    (h : readFromStr limit columns text = .ok (docs, none)) : ∀ d ∈ docs, BuiltValid d := by
  obtain ⟨_, items, chunks, g1, g2, g3⟩ := C16_accepts_iff.mp h
  intro d hd
  obtain ⟨i, hi, e⟩ := List.getElem_of_mem hd
  have := (List.forall₂_iff_get.mp g3).2 i (g3.length_eq ▸ hi) hi
  simp only [List.get_eq_getElem, e] at this
  obtain ⟨toks, ss, _, _, _, h⟩ := this
  exact ⟨_, _, _, h⟩

theorem sameCount_comm_samePlaces {α : Type} [DecidableEq α] (f : Token → α) (a b : List Token) :
    sameCount (a.map f) (b.map f) = samePlaces f a b := by
  unfold sameCount samePlaces
  rw [List.zip_map, List.filter_map, List.length_map]
  rfl

theorem agreeing_columns {cols : List Nat} {g : Token → List Str} {R : Token → UDWord → Prop}
    (hR : ∀ t w, R t w → cols.map (colOf w.columns) = g t) {ws ws' : List UDWord} {ts : List Token}
    (h : List.Forall₂ R ts ws') :
    agreeing (ColsAgree cols) ws ws' = sameCount (ws.map fun w => cols.map (colOf w.columns)) (ts.map g) := by
  have e : ts.map g = ws'.map fun w => cols.map (colOf w.columns) := by
    induction h with
    | nil => rfl
    | cons a _ ih => rw [List.map_cons, List.map_cons, ih, hR _ _ a]
  rw [e]
  unfold agreeing sameCount
  rw [List.zip_map, List.filter_map, List.length_map]
  congr 1
  apply List.filter_congr
  intro p _
  simp only [Function.comp, Prod.map]
  rw [decide_eq_decide]
  unfold ColsAgree
  exact (List.map_inj_left (f := colOf p.1.columns) (g := colOf p.2.columns)).symm

theorem loadedRow_columns {text : Str} {m : Bool} {k : Nat} {t : Token} {r : List Str}
    (h : LoadedRow (withHead defaultCols) text m k t r) {name : Str} {cols : List Nat} {f : Token → List Str}
    (hf : (name, cols, f) ∈ fileMetrics) : cols.map (colOf r) = f t := by
  have w : ∀ c v, c ∈ withHead defaultCols → written (withHead defaultCols) c v = v.getD underscore := by
    intro c v hc; unfold written; rw [if_pos hc]
  unfold fileMetrics at hf
  simp only [List.mem_cons, List.not_mem_nil, or_false, Prod.mk.injEq] at hf
  rcases hf with ⟨rfl, rfl, rfl⟩ | ⟨rfl, rfl, rfl⟩ | ⟨rfl, rfl, rfl⟩ | ⟨rfl, rfl, rfl⟩ | ⟨rfl, rfl, rfl⟩ <;>
    simp only [List.map_cons, List.map_nil]
  · rw [h.upos, w _ _ (by decide)]
  · rw [h.xpos, w _ _ (by decide)]
  · rw [writtenFeats_of h]
  · rw [h.upos, h.xpos, writtenFeats_of h, w _ _ (by decide), w _ _ (by decide)]
  · rw [h.lemma', w _ _ (by decide)]

theorem fileMetrics_names {m : Metrics} {name : Str} {cols : List Nat} {f : Token → List Str}
    (hf : (name, cols, f) ∈ fileMetrics) : ∃ s, m.table.get? name = some s ∧
      (cols, s) ∈ [([colUPOS], m.upos), ([colXPOS], m.xpos), ([colFEATS], m.feats),
          ([colUPOS, colXPOS, colFEATS], m.allTags), ([colLEMMA], m.lemmas)] := by
  have t := table_get m
  unfold fileMetrics at hf
  simp only [List.mem_cons, List.not_mem_nil, or_false, Prod.mk.injEq] at hf
  rcases hf with ⟨rfl, rfl, rfl⟩ | ⟨rfl, rfl, rfl⟩ | ⟨rfl, rfl, rfl⟩ | ⟨rfl, rfl, rfl⟩ | ⟨rfl, rfl, rfl⟩
  · exact ⟨_, t.1, by simp⟩
  · exact ⟨_, t.2.1, by simp⟩
  · exact ⟨_, t.2.2.1, by simp⟩
  · exact ⟨_, t.2.2.2.1, by simp⟩
  · exact ⟨_, t.2.2.2.2.1, by simp⟩

theorem file_scores {lower : Str → Str} {depth : Nat} {text : Str} {docs pred : List Document} {ud ud' : UD}
    {tag : List Document → Res (List Document)} (hr : '\r' ∉ text) (hc : CommentsPlain text)
    (h1 : readFromStr 1 defaultCols text = .ok (docs, none)) (h2 : loadConllu depth text = .ok ud)
    (hs : List.Forall₂ SameSkeleton docs pred) (ht : ∀ blind, prepareTestData docs = .ok blind → tag blind = .ok pred)
    {out : Str} (w : writeToStr defaultCols pred = .ok out) (l : loadConllu depth out = .ok ud') {sents' : List (List UdToken)}
    (q : UdOf sents' ud')
    (r : List.Forall₂ (fun (p : Str × List Token) us => LoadsAs (withHead defaultCols) p.1 0 p.2 us) (sentencesOf pred) sents')
    (hb : ∀ d ∈ pred, Built d) (hh : ∀ d ∈ pred, ∀ t ∈ d.tokens, ∀ v, t.headSent = some v → -1 ≤ v) :
    ∃ table, testFile lower depth text tag = .ok table ∧ ud.words.length = (allTokens docs).length ∧
      (∀ name cols f, (name, cols, f) ∈ fileMetrics → ∃ s, table.get? name = some s ∧
        IsScore s (allTokens docs).length (allTokens docs).length
          (sameCount (columnValues cols ud) ((allTokens pred).map f)) (some (allTokens docs).length)) ∧
      (∃ s, table.get? "UAS".toList = some s ∧ IsScore s (allTokens docs).length (allTokens docs).length
        (sameCount ((allArcs defaultCols docs).map Prod.fst) ((allArcs defaultCols pred).map Prod.fst))
        (some (allTokens docs).length)) ∧
      ∃ s, table.get? "LAS".toList = some s ∧ IsScore s (allTokens docs).length (allTokens docs).length
        (sameCount (allArcs defaultCols docs) (allArcs defaultCols pred)) (some (allTokens docs).length) := by
  obtain ⟨sents, k1, k2, k3⟩ := read_load hr hc h1 h2
  obtain ⟨v1, v2, v3, v4⟩ := read_again hr hc h1 h2
  obtain ⟨m, hm, hn, hcols, huas, hlas⟩ := eval_documents (lower := lower) (columns := defaultCols) (columns' := defaultCols)
    (fun text => ⟨FileRow.showsForm text, FileRow.showsArc text⟩)
    (fun text => ⟨LoadedRow.showsForm _ text, LoadedRow.showsArc _ text⟩)
    (fun d hd => (v1 d hd).built) hs ⟨_, _, h2⟩ ⟨_, _, l⟩ k2 q k3 r (allArcs_nonneg v3) (allArcs_nonneg hh)
  obtain ⟨blind, hblind, _⟩ := C53_blind (fun d hd => (v1 d hd).built)
  have t := table_get m
  refine ⟨m.table, ?_, hn, ?_, ⟨_, t.2.2.2.2.2.1, huas⟩, ⟨_, t.2.2.2.2.2.2.1, hlas⟩⟩
  · unfold testFile dataSetDocs testTagger
    rw [h1]
    simp only [hblind, ht blind hblind, convertToInternal, w, l, h2, hm]
  · intro name cols f hf
    obtain ⟨s, s1, s2⟩ := fileMetrics_names (m := m) hf
    refine ⟨s, s1, ?_⟩
    have := hcols cols s s2
    have a2 := words_of_loads (R := fun text => LoadedRow (withHead defaultCols) text) hb q r
    rwa [agreeing_columns (g := f) ?_ a2] at this
    rintro t w ⟨x, m', k, b⟩
    exact loadedRow_columns b hf

/-- C110: scores on a gold file.  The tagger's documents differ from those of the file in annotations only.
Then each of UPOS, XPOS, Feats, AllTags and Lemmas is the share of words for which the columns of the gold
file are what is written for the tagger's token. -/
theorem C110_against_columns {lower : Str → Str} {depth : Nat} {text : Str} {docs pred : List Document} {ud : UD}
    {tag : List Document → Res (List Document)} (hr : '\r' ∉ text) (hc : CommentsPlain text)
    (h1 : readFromStr 1 defaultCols text = .ok (docs, none)) (h2 : loadConllu depth text = .ok ud) (hd : 2 ≤ depth)
    (hp : Scorable defaultCols depth pred) (hs : List.Forall₂ SameSkeleton docs pred)
    (ht : ∀ blind, prepareTestData docs = .ok blind → tag blind = .ok pred) :
    ∃ table, testFile lower depth text tag = .ok table ∧ ud.words.length = (allTokens docs).length ∧
      ∀ name cols f, (name, cols, f) ∈ fileMetrics → ∃ s, table.get? name = some s ∧
        IsScore s (allTokens docs).length (allTokens docs).length
          (sameCount (columnValues cols ud) ((allTokens pred).map f)) (some (allTokens docs).length) := by
  obtain ⟨o2, u2, s2, w2, l2, q2, r2⟩ := C76_valid_loads hd hp.valid hp.loadable hp.heads hp.short hp.feats
  obtain ⟨table, g1, g2, g3, _⟩ := file_scores (lower := lower) hr hc h1 h2 hs ht w2 l2 q2 r2
    (fun d hd => (hp.valid d hd).built) hp.heads
  exact ⟨table, g1, g2, g3⟩

theorem fileRow_columns {text : Str} {m : Bool} {k : Nat} {t : Token} {r : List Str} (h : FileRow text m k t r)
    {name : Str} {cols : List Nat} {f : Token → List Str} (hf : (name, cols, f) ∈ fileMetrics)
    (hx : colFEATS ∈ cols → colOf r colFEATS = writtenFeats t) : cols.map (colOf r) = f t := by
  unfold fileMetrics at hf
  simp only [List.mem_cons, List.not_mem_nil, or_false, Prod.mk.injEq] at hf
  rcases hf with ⟨rfl, rfl, rfl⟩ | ⟨rfl, rfl, rfl⟩ | ⟨rfl, rfl, rfl⟩ | ⟨rfl, rfl, rfl⟩ | ⟨rfl, rfl, rfl⟩ <;>
    simp only [List.map_cons, List.map_nil]
  · rw [h.upos]
  · rw [h.xpos]
  · rw [hx (by simp)]
  · rw [h.upos, h.xpos, hx (by simp)]
  · rw [h.lemma']

/-- C110: the columns of the gold file are the annotations of the tokens that were read from it, where
FEATS are involved if they are spelled the way the features are written. -/
theorem C110_gold_values {limit : Int} {text : Str} {docs : List Document} {depth : Nat} {ud : UD} (hr : '\r' ∉ text)
    (hc : CommentsPlain text) (h1 : readFromStr limit defaultCols text = .ok (docs, none))
    (h2 : loadConllu depth text = .ok ud) {name : Str} {cols : List Nat} {f : Token → List Str}
    (hf : (name, cols, f) ∈ fileMetrics) (hx : colFEATS ∈ cols → FeatsAsWritten docs ud) :
    columnValues cols ud = (allTokens docs).map f := by
  obtain ⟨sents, _, k2, k3⟩ := read_load hr hc h1 h2
  have a := words_of_loads (fun d hd => (read_builtValid h1 d hd).built) k2 k3
  unfold columnValues
  unfold FeatsAsWritten at hx
  generalize allTokens docs = ts at *
  generalize ud.words = ws at *
  clear k2 k3 h1 h2
  induction a with
  | nil => rfl
  | cons b _ ih =>
    obtain ⟨x, m, k, b⟩ := b
    rw [List.map_cons, List.map_cons, ih (fun h => by cases hx h with | cons _ h => exact h)]
    rw [fileRow_columns b hf fun h => by cases hx h with | cons h _ => exact h]

/-- C110: scores on a gold file as shares of tokens, for metrics that do not involve FEATS, or if the FEATS
of the file are spelled the way the features are written. -/
theorem C110_token_scores_partial {lower : Str → Str} {depth : Nat} {text : Str} {docs pred : List Document} {ud : UD}
    {tag : List Document → Res (List Document)} (hr : '\r' ∉ text) (hc : CommentsPlain text)
    (h1 : readFromStr 1 defaultCols text = .ok (docs, none)) (h2 : loadConllu depth text = .ok ud) (hd : 2 ≤ depth)
    (hp : Scorable defaultCols depth pred) (hs : List.Forall₂ SameSkeleton docs pred)
    (ht : ∀ blind, prepareTestData docs = .ok blind → tag blind = .ok pred) :
    ∃ table, testFile lower depth text tag = .ok table ∧
      ∀ name cols f, (name, cols, f) ∈ fileMetrics → (colFEATS ∈ cols → FeatsAsWritten docs ud) →
        ∃ s, table.get? name = some s ∧ IsScore s (allTokens docs).length (allTokens docs).length
          (samePlaces f (allTokens docs) (allTokens pred)) (some (allTokens docs).length) := by
  obtain ⟨table, g1, _, g3⟩ := C110_against_columns (lower := lower) hr hc h1 h2 hd hp hs ht
  refine ⟨table, g1, fun name cols f hf hx => ?_⟩
  obtain ⟨s, s1, s2⟩ := g3 name cols f hf
  rw [C110_gold_values hr hc h1 h2 hf hx, sameCount_comm_samePlaces] at s2
  exact ⟨s, s1, s2⟩

theorem sameCount_le {α : Type} [DecidableEq α] (a b : List α) : sameCount a b ≤ a.length := by
  unfold sameCount
  refine (List.length_filter_le _ _).trans ?_
  rw [List.length_zip]
  exact Nat.min_le_left _ _

theorem sameCount_full {α : Type} [DecidableEq α] {a b : List α} (hl : a.length = b.length) :
    sameCount a b = a.length ↔ a = b := by
  unfold sameCount
  induction a generalizing b with
  | nil => rw [List.length_nil] at hl; rw [List.length_eq_zero_iff.mp hl.symm]; simp
  | cons x a ih =>
    cases b with
    | nil => simp at hl
    | cons y b =>
      have hl' : a.length = b.length := by simpa using hl
      rw [List.zip_cons_cons, List.filter_cons]
      by_cases hf : x = y
      · rw [if_pos (by simpa using hf), List.length_cons, List.length_cons, Nat.add_right_cancel_iff, ih hl', hf]
        simp
      · rw [if_neg (by simpa using hf), List.length_cons]
        have := sameCount_le a b
        unfold sameCount at this
        constructor
        · intro h; omega
        · intro h; injection h with h _; exact absurd h hf

theorem isScore_perfect {s : Score} {n c : Nat} (hn : 0 < n) (h : IsScore s n n c (some n)) : Perfect true s ↔ c = n := by
  have hq : (0 : Rat) < n := by exact_mod_cast hn
  have e : ∀ x : Rat, ratio x n = x / n := fun x => by rw [ratio, if_neg (ne_of_gt hq)]
  constructor
  · intro hp
    have := hp.1
    rw [h.precision, e, div_eq_one_iff_eq (ne_of_gt hq)] at this
    exact_mod_cast this
  · rintro rfl
    have h1 : ratio (c : Rat) c = 1 := by rw [e, div_self (ne_of_gt hq)]
    refine ⟨by rw [h.precision, h1], by rw [h.recall, h1], ?_, by rw [h.aligned]; simp [h1]⟩
    rw [h.f1, ratio, if_neg (by linarith), ← two_mul]
    exact div_self (by linarith)

theorem skeleton_refl (docs : List Document) : List.Forall₂ SameSkeleton docs docs :=
  List.forall₂_same.mpr fun _ _ => ⟨rfl, rfl, List.forall₂_same.mpr fun _ _ => ⟨rfl, rfl, rfl, rfl⟩⟩

theorem columnValues_full {docs : List Document} {ud : UD} (hn : ud.words.length = (allTokens docs).length) :
    columnValues [colFEATS] ud = (allTokens docs).map (fun t => [writtenFeats t]) ↔ FeatsAsWritten docs ud := by
  unfold columnValues FeatsAsWritten
  generalize allTokens docs = ts at *
  generalize ud.words = ws at *
  induction ts generalizing ws with
  | nil => rw [List.length_nil] at hn; rw [List.length_eq_zero_iff.mp hn]; simp
  | cons t ts ih =>
    cases ws with
    | nil => simp at hn
    | cons w ws =>
      rw [List.forall₂_cons, ← ih ws (by simpa using hn)]
      simp

/-- C110: a tagger that returns the documents of the gold file has perfect UPOS, XPOS, Lemmas, UAS and LAS,
and its Feats are perfect exactly if the FEATS of the file are spelled the way the features are written. -/
theorem C110_oracle {lower : Str → Str} {depth : Nat} {text : Str} {docs : List Document} {ud : UD}
    {tag : List Document → Res (List Document)} (hr : '\r' ∉ text) (hc : CommentsPlain text)
    (h1 : readFromStr 1 defaultCols text = .ok (docs, none)) (h2 : loadConllu depth text = .ok ud) (hne : docs ≠ [])
    (ht : ∀ blind, prepareTestData docs = .ok blind → tag blind = .ok docs) :
    ∃ table, testFile lower depth text tag = .ok table ∧
      (∀ name ∈ ["UPOS", "XPOS", "Lemmas", "UAS", "LAS"].map String.toList,
        ∃ s, table.get? name = some s ∧ Perfect true s) ∧
      ∃ s, table.get? "Feats".toList = some s ∧ (Perfect true s ↔ FeatsAsWritten docs ud) := by
  obtain ⟨v1, v2, v3, v4⟩ := read_again hr hc h1 h2
  obtain ⟨out, hout⟩ := writeToStr_total (columns := defaultCols) (fun d hd => (v1 d hd).built) (fun d hd t ht =>
    .inr (by decide))
  obtain ⟨ud', sents', l, q, r⟩ := write_load (fun d hd => (v1 d hd).built) v2 v4 hout
  obtain ⟨table, g1, g2, g3, ⟨s4, g4, g4'⟩, ⟨s5, g5, g5'⟩⟩ := file_scores (lower := lower) hr hc h1 h2 (skeleton_refl docs) ht hout l q r
    (fun d hd => (v1 d hd).built) v3
  have hpos : 0 < (allTokens docs).length := by
    obtain ⟨d, ds, rfl⟩ := List.exists_cons_of_ne_nil hne
    have hsne := C16_accepts_iff.mp h1
    obtain ⟨_, items, chunks, x1, x2, x3⟩ := hsne
    cases x3 with
    | @cons c _ cs _ a _ =>
      have hcne := (x2.size c (by simp)).1
      have hd := a.docOf hcne
      have := hd.bounds.wordCount_pos hcne
      rw [← hd.tokens.length] at this
      simp only [allTokens, List.flatMap_cons, List.length_append]
      omega
  have hcnt : ∀ {α : Type} [DecidableEq α] (f : Token → α),
      samePlaces f (allTokens docs) (allTokens docs) = (allTokens docs).length :=
    fun f => samePlaces_all (List.forall₂_same.mpr fun _ _ => rfl)
  have harcs : (allArcs defaultCols docs).length = (allTokens docs).length := by
    rw [← allTokens_eq (fun d hd => (v1 d hd).built), allArcs, List.length_flatMap, List.length_flatMap]
    congr 1
    apply List.map_congr_left
    intro p _
    rw [writtenArcs_length]
  refine ⟨table, g1, ?_, ?_⟩
  · have key : ∀ name cols f, (name, cols, f) ∈ fileMetrics → colFEATS ∉ cols → ∃ s, table.get? name = some s ∧ Perfect true s := by
      intro name cols f hf hx
      obtain ⟨s, s1, s2⟩ := g3 name cols f hf
      rw [C110_gold_values hr hc h1 h2 hf (fun h => absurd h hx), sameCount_comm_samePlaces, hcnt] at s2
      exact ⟨s, s1, (isScore_perfect hpos s2).mpr rfl⟩
    intro name hname
    simp only [List.map_cons, List.map_nil, List.mem_cons, List.not_mem_nil, or_false] at hname
    rcases hname with rfl | rfl | rfl | rfl | rfl
    · exact key _ [colUPOS] _ (by unfold fileMetrics; exact .head _) (by decide)
    · exact key _ [colXPOS] _ (by unfold fileMetrics; exact .tail _ (.head _)) (by decide)
    · exact key _ [colLEMMA] _ (by unfold fileMetrics; exact .tail _ (.tail _ (.tail _ (.tail _ (.head _))))) (by decide)
    · refine ⟨s4, g4, (isScore_perfect hpos g4').mpr ?_⟩
      rw [(sameCount_full rfl).mpr rfl, List.length_map, harcs]
    · refine ⟨s5, g5, (isScore_perfect hpos g5').mpr ?_⟩
      rw [(sameCount_full rfl).mpr rfl, harcs]
  · obtain ⟨s, s1, s2⟩ := g3 "Feats".toList [colFEATS] (fun t => [writtenFeats t])
      (by unfold fileMetrics; exact .tail _ (.tail _ (.head _)))
    refine ⟨s, s1, ?_⟩
    rw [isScore_perfect hpos s2, ← columnValues_full g2]
    have hl : (columnValues [colFEATS] ud).length = (allTokens docs).length := by
      unfold columnValues; rw [List.length_map, g2]
    rw [← hl]
    exact sameCount_full (by rw [hl, List.length_map])

/-- C110: FEATS like `a=b|c=d`, in code point order and without repeated names, are spelled the way the
features are written. -/
theorem C110_sorted_feats {text : Str} {m : Bool} {k : Nat} {t : Token} {r : List Str} (h : FileRow text m k t r)
    {pairs : List (Str × Str)} (hne : pairs ≠ []) (hp : ∀ e ∈ pairs, '=' ∉ e.1 ∧ '=' ∉ e.2 ∧ '|' ∉ e.1 ∧ '|' ∉ e.2)
    (hn : (pairs.map Prod.fst).Nodup) (hs : (pairs.map fun e => e.1 ++ '=' :: e.2).Pairwise (· ≤ ·))
    (hf : colOf r colFEATS = joinWith '|' (pairs.map fun e => e.1 ++ '=' :: e.2)) :
    colOf r colFEATS = writtenFeats t := by
  obtain ⟨p, f, g1, g2, g3⟩ := h.feats
  have hcol := cell_colOf g2
  have hmem : '=' ∈ colOf r colFEATS := by
    obtain ⟨e, es, rfl⟩ := List.exists_cons_of_ne_nil hne
    rw [hf]
    exact mem_of_joinWith (w := e.1 ++ '=' :: e.2) (by simp) (by simp)
  cases f with
  | none => rw [hcol] at hmem; exact absurd hmem (by decide)
  | some f =>
    rw [Option.getD_some] at hcol
    obtain ⟨parts, prs, n1, n2, n3, n4, n5⟩ := g3
    have hparts : parts = pairs.map fun e => e.1 ++ '=' :: e.2 := by
      rw [← splitOn1_joinWith n1 n2, ← n3, ← hcol, hf, splitOn1_joinWith (by simpa using hne)]
      intro w hw
      obtain ⟨e, he, rfl⟩ := List.mem_map.mp hw
      have := hp e he
      simp [this.2.2.1, this.2.2.2]
    have hpairs : prs = pairs := by
      rw [hparts, List.forall₂_map_left_iff] at n4
      clear n5 hs hn hf hparts hcol n3 hmem hne
      induction n4 with
      | nil => rfl
      | @cons e x es xs a _ ih =>
        rw [ih (fun e he => hp e (List.mem_cons_of_mem _ he))]
        congr 1
        have he := hp e List.mem_cons_self
        obtain ⟨a1, a2, a3⟩ := a
        have hcut : ∀ (y z : Str), '=' ∉ y → ∀ (u v : Str), '=' ∉ u → y ++ '=' :: z = u ++ '=' :: v → y = u ∧ z = v :=
          fun y z hy u v hu e => split_at_blank hy hu e
        rcases a3 with a3 | ⟨q, a3⟩
        · obtain ⟨b1, b2⟩ := hcut _ _ he.1 _ _ a1 a3
          exact Prod.ext b1.symm b2.symm
        · obtain ⟨b1, b2⟩ := hcut _ _ he.1 _ _ a1 a3
          exact absurd (by rw [b2]; simp) he.2.1
    subst hpairs
    have hperm : p.feats.entries.Perm prs := by
      rw [List.perm_ext_iff_of_nodup]
      · intro e
        rw [← Dict.get?_mem, n5, Option.map_eq_some_iff]
        constructor
        · rintro ⟨x, hx, h6⟩
          have hk := List.find?_some hx
          simp only [decide_eq_true_eq] at hk
          have hm := List.mem_reverse.mp (List.mem_of_find?_eq_some hx)
          have : x = e := Prod.ext hk h6
          rwa [this] at hm
        · intro he
          obtain ⟨x, hx⟩ : ∃ x, prs.reverse.find? (fun x => decide (x.1 = e.1)) = some x := by
            rw [← Option.isSome_iff_exists, List.find?_isSome]
            exact ⟨e, List.mem_reverse.mpr he, by simp⟩
          have hk := List.find?_some hx
          simp only [decide_eq_true_eq] at hk
          have hm := List.mem_reverse.mp (List.mem_of_find?_eq_some hx)
          refine ⟨x, hx, ?_⟩
          have := List.inj_on_of_nodup_map hn hm he hk
          rw [this]
      · exact List.Nodup.of_map _ p.feats.nodup
      · exact List.Nodup.of_map _ hn
    unfold writtenFeats
    rw [g1]
    simp only [featsText]
    rw [if_neg, hf]
    · congr 1
      rw [pySorted_eq_of_perm (· ≤ ·) le_total (fun _ _ _ => le_trans) (fun a b _ _ h1 h2 => le_antisymm h1 h2)
        (hperm.map _), pySorted_eq_self _ hs]
    · intro he
      rw [List.isEmpty_iff] at he
      rw [he] at hperm
      exact hne hperm.symm.eq_nil

/-- C110: an empty FEATS column is spelled the way missing features are written. -/
theorem C110_empty_feats {text : Str} {m : Bool} {k : Nat} {t : Token} {r : List Str} (h : FileRow text m k t r)
    (hf : colOf r colFEATS = underscore) : colOf r colFEATS = writtenFeats t := by
  obtain ⟨p, f, g1, ⟨x, g2, ⟨rfl, rfl⟩ | ⟨g3, rfl⟩⟩, g4⟩ := h.feats
  · have he : p.feats.entries = [] := by
      rw [List.eq_nil_iff_forall_not_mem]
      intro e he
      have := (Dict.get?_mem ..).mpr he
      rw [g4] at this; cases this
    rw [hf, writtenFeats, g1]
    simp [featsText, he]
  · rw [colOf_eq g2] at hf; exact absurd hf g3

namespace Demo

/-- A gold file with the features of its second word in the order used by treebanks. -/
def goldFile : Str := "# a\n1\tthe\tthe\tDET\tD\t_\t2\tdet\t_\t_\n2\tcat\tcat\tNOUN\tN\tNumber=Sing|NumType=Card\t0\troot:x\t_\t_\n\n".toList ++
  "1-2\tdel\t_\t_\t_\t_\t_\t_\t_\t_\n1\tde\tde\tADP\t_\tA=b|C=d\t2\tcase\t_\t_\n2\tel\tel\tDET\t_\t_\t0\troot\t_\t_\n\n".toList

/-- The documents of the file. -/
def goldDocs : List Document := match readFromStr 1 defaultCols goldFile with
  | .ok (docs, none) => docs
  | _ => []

theorem goldRead : readFromStr 1 defaultCols goldFile = .ok (goldDocs, none) := by decide +kernel

end Demo

/-- C110, refuted for Feats: a tagger that returns the documents of the gold file can have Feats below 1.  The
file says `Number=Sing|NumType=Card`, which is written as `NumType=Card|Number=Sing`. -/
theorem C110_refuted_feats : (testFile id 10 Demo.goldFile (fun _ => .ok Demo.goldDocs)).map (fun t =>
      ["UPOS", "XPOS", "Feats", "AllTags", "Lemmas", "UAS", "LAS"].map (fun n => (t.get? n.toList).map Score.f1)) =
    .ok [some 1, some 1, some (3 / 4), some (3 / 4), some 1, some 1, some 1] := by decide +kernel

/-- The file meets the hypotheses of C110. -/
example : '\r' ∉ Demo.goldFile ∧ CommentsPlain Demo.goldFile ∧
    readFromStr 1 defaultCols Demo.goldFile = .ok (Demo.goldDocs, none) ∧ Demo.goldDocs.length = 2 ∧
    (loadConllu 10 Demo.goldFile).isOk = true ∧
    (∀ e ∈ [("A".toList, "b".toList), ("C".toList, "d".toList)], '=' ∉ e.1 ∧ '=' ∉ e.2 ∧ '|' ∉ e.1 ∧ '|' ∉ e.2) ∧
    ([("A".toList, "b".toList), ("C".toList, "d".toList)].map fun e => e.1 ++ '=' :: e.2).Pairwise (· ≤ ·) := by
  refine ⟨by decide +kernel, by decide +kernel, Demo.goldRead, by decide +kernel, by decide +kernel, by decide +kernel, by decide +kernel⟩

/-- C110: the condition on comments is needed.  A comment with ten columns among the words of a multiword
token is a word for the evaluation, but not for the tagger. -/
theorem C110_comments_needed : ∃ text docs ud, readFromStr 1 defaultCols text = .ok (docs, none) ∧
    loadConllu 10 text = .ok ud ∧ '\r' ∉ text ∧ (allTokens docs).length = 2 ∧ ud.words.length = 3 :=
  ⟨"1-2\tab\t_\t_\t_\t_\t_\t_\t_\t_\n1\ta\t_\t_\t_\t_\t0\t_\t_\t_\n#\tx\t_\t_\t_\t_\t1\t_\t_\t_\n3\tb\t_\t_\t_\t_\t1\t_\t_\t_\n\n".toList,
   _, _, (by rfl : _ = Except.ok (_, none)), (by rfl : _ = Except.ok _), by decide +kernel, by decide +kernel, by decide +kernel⟩

/-! ### C111 -/

/-- C111: the scores of a parser whose documents differ from the gold documents in annotations only.  UAS is
the share of tokens with the HEAD number of the gold token, LAS the share of tokens with that number and
the same relation up to its subtype. -/
theorem C111_parser_scores {lower : Str → Str} {columns : Cols} {depth : Nat} {gold pred : List Document}
    {tag : List Document → Res (List Document)} (h2 : 2 ≤ depth) (hg : Scorable columns depth gold)
    (hp : Scorable columns depth pred) (hs : List.Forall₂ SameSkeleton gold pred)
    (ht : ∀ blind, prepareTestData gold = .ok blind → tag blind = .ok pred) :
    ∃ table, testDataSet lower columns depth gold tag = .ok table ∧
      (∃ s, table.get? "UAS".toList = some s ∧ IsScore s (allTokens gold).length (allTokens gold).length
        (sameCount ((allArcs columns gold).map Prod.fst) ((allArcs columns pred).map Prod.fst))
        (some (allTokens gold).length)) ∧
      ∃ s, table.get? "LAS".toList = some s ∧ IsScore s (allTokens gold).length (allTokens gold).length
        (sameCount (allArcs columns gold) (allArcs columns pred)) (some (allTokens gold).length) := by
  obtain ⟨o1, u1, s1, w1, l1, q1, r1⟩ := C76_valid_loads h2 hg.valid hg.loadable hg.heads hg.short hg.feats
  obtain ⟨o2, u2, s2, w2, l2, q2, r2⟩ := C76_valid_loads h2 hp.valid hp.loadable hp.heads hp.short hp.feats
  obtain ⟨m, hm, hn, hcols, huas, hlas⟩ := eval_documents (lower := lower) (columns := columns) (columns' := columns)
    (fun text => ⟨LoadedRow.showsForm _ text, LoadedRow.showsArc _ text⟩)
    (fun text => ⟨LoadedRow.showsForm _ text, LoadedRow.showsArc _ text⟩)
    (fun d hd => (hg.valid d hd).built) hs ⟨_, _, l1⟩ ⟨_, _, l2⟩ q1 q2 r1 r2 (allArcs_nonneg hg.heads) (allArcs_nonneg hp.heads)
  obtain ⟨blind, hblind, _⟩ := C53_blind (fun d hd => (hg.valid d hd).built)
  have t := table_get m
  refine ⟨m.table, ?_, ⟨_, t.2.2.2.2.2.1, huas⟩, ⟨_, t.2.2.2.2.2.2.1, hlas⟩⟩
  unfold testDataSet testTagger
  rw [hblind]
  simp only [ht blind hblind, convertToInternal, w1, w2, l1, l2, hm]

/-- C111: the same for a gold file. -/
theorem C111_parser_scores_file {lower : Str → Str} {depth : Nat} {text : Str} {docs pred : List Document} {ud : UD}
    {tag : List Document → Res (List Document)} (hr : '\r' ∉ text) (hc : CommentsPlain text)
    (h1 : readFromStr 1 defaultCols text = .ok (docs, none)) (h2 : loadConllu depth text = .ok ud) (hd : 2 ≤ depth)
    (hp : Scorable defaultCols depth pred) (hs : List.Forall₂ SameSkeleton docs pred)
    (ht : ∀ blind, prepareTestData docs = .ok blind → tag blind = .ok pred) :
    ∃ table, testFile lower depth text tag = .ok table ∧
      (∃ s, table.get? "UAS".toList = some s ∧ IsScore s (allTokens docs).length (allTokens docs).length
        (sameCount ((allArcs defaultCols docs).map Prod.fst) ((allArcs defaultCols pred).map Prod.fst))
        (some (allTokens docs).length)) ∧
      ∃ s, table.get? "LAS".toList = some s ∧ IsScore s (allTokens docs).length (allTokens docs).length
        (sameCount (allArcs defaultCols docs) (allArcs defaultCols pred)) (some (allTokens docs).length) := by
  obtain ⟨o2, u2, s2, w2, l2, q2, r2⟩ := C76_valid_loads hd hp.valid hp.loadable hp.heads hp.short hp.feats
  obtain ⟨table, g1, _, _, g4, g5⟩ := file_scores (lower := lower) hr hc h1 h2 hs ht w2 l2 q2 r2
    (fun d hd => (hp.valid d hd).built) hp.heads
  exact ⟨table, g1, g4, g5⟩

/-- C111: a tagger that leaves the syntax empty is scored like a parser that attaches every word to the
previous one without a relation; the first word of a sentence is its root. -/
theorem C111_no_syntax {docs : List Document} (h : ∀ d ∈ docs, ∀ t ∈ d.tokens, t.headSent = none) :
    allArcs defaultCols docs = (sentencesOf docs).flatMap fun p => (List.range p.2.length).map fun i : Nat => ((i : Int), underscore) := by
  unfold allArcs
  rw [List.flatMap_def, List.flatMap_def]
  congr 1
  apply List.map_congr_left
  intro p hp
  obtain ⟨d, hd, hp⟩ := List.mem_flatMap.mp hp
  obtain ⟨s, hs, rfl⟩ := List.mem_map.mp hp
  have hn : ∀ t ∈ d.sentenceTokens s, t.headSent = none := fun t ht => h d hd t (sentence_token_mem ht)
  have key : ∀ (ts : List Token) (k : Nat), (∀ t ∈ ts, t.headSent = none) →
      writtenArcs (withHead defaultCols) k ts = (List.range ts.length).map fun i : Nat => (((k + i : Nat) : Int), underscore) := by
    intro ts
    induction ts with
    | nil => intros; rfl
    | cons t ts ih =>
      intro k hk
      rw [writtenArcs, ih (k + 1) (fun u hu => hk u (List.mem_cons_of_mem _ hu)), List.length_cons, List.range_succ_eq_map,
        List.map_cons, List.map_map]
      have h0 := hk t List.mem_cons_self
      congr 1
      · simp [writtenHead, writtenRelation, h0, withHead, defaultCols]
      · apply List.map_congr_left
        intro i _
        simp only [Function.comp]
        rw [show k + 1 + i = k + i.succ by omega]
  simpa using key _ 0 hn

namespace Demo

/-- A decidable condition for documents that can be loaded. -/
theorem loadableOf {d : Document} (h1 : ∀ t ∈ d.tokens, Plain (tokText d.text t) ∧ Plain (docText d.text t) ∧
      t.lemma'.all (fun s => decide (Plain s)) = true ∧ t.deprel.all (fun s => decide (Plain s)) = true ∧
      t.pos.all (fun p => p.upos.all (fun s => decide (Plain s)) && p.xpos.all (fun s => decide (Plain s)) &&
        p.feats.entries.all (fun e => decide (Plain e.1 ∧ Plain e.2))) = true)
    (h2 : ∀ t ∈ d.tokens, noSpaces (docText d.text t) ≠ []) (h3 : ∀ s ∈ d.sentences.dropLast, EndsRegular (d.sentenceTokens s)) :
    Loadable d := by
  refine ⟨?_, h2, h3⟩
  intro t ht
  obtain ⟨a1, a2, a3, a4, a5⟩ := h1 t ht
  refine ⟨a1, a2, ?_, ?_, ?_, ?_, ?_⟩
  · intro s hs; rw [hs] at a3; simpa using a3
  · intro s hs; rw [hs] at a4; simpa using a4
  · intro p s hp hs; rw [hp] at a5; simp only [Option.all_some, Bool.and_eq_true, hs] at a5; simpa using a5.1.1
  · intro p s hp hs; rw [hp] at a5; simp only [Option.all_some, Bool.and_eq_true, hs] at a5; simpa using a5.1.2
  · intro p hp; rw [hp] at a5
    simp only [Option.all_some, Bool.and_eq_true, List.all_eq_true, decide_eq_true_eq] at a5; exact a5.2

/-- `wdoc` with another head for the third word and a relation for the first one. -/
def hdoc : Document :=
  { wdoc with tokens := [{ w0 with headDoc := some 1, deprel := some "obj".toList }, { w1 with headDoc := some (-1) },
      { w2 with headDoc := some 0, headSent := some 0, deprel := some "dep:sub".toList }, { w3 with headDoc := some (-1) }] }

theorem hscorable : Scorable defaultCols 3 [hdoc] :=
  scorable ⟨hdoc.text, hdoc.tokens, some hdoc.sentences, by decide +kernel⟩
    (loadableOf (by decide +kernel) (by decide +kernel) (by decide +kernel)) (by decide +kernel) (by decide +kernel)

theorem hskeleton : List.Forall₂ SameSkeleton [wdoc] [hdoc] :=
  .cons ⟨rfl, rfl, .cons (by decide) (.cons (by decide) (.cons (by decide) (.cons (by decide) .nil)))⟩ .nil

/-- The documents of the gold file meet the conditions on the tagger's documents. -/
theorem goldScorable : Scorable defaultCols 10 goldDocs := by
  obtain ⟨ud, hu⟩ : ∃ ud, loadConllu 10 goldFile = .ok ud := by
    have h : (loadConllu 10 goldFile).isOk = true := by decide +kernel
    cases hl : loadConllu 10 goldFile with
    | ok ud => exact ⟨ud, rfl⟩
    | error e => rw [hl] at h; cases h
  obtain ⟨v1, v2, v3, _⟩ := read_again (by decide +kernel) (by decide +kernel) goldRead hu
  exact ⟨v1, v2, v3, by decide +kernel, fun _ _ _ _ => .inr (by decide)⟩

end Demo

/-- The hypotheses of C111 hold for documents with a multiword token and two sentences.  With another head
for the third word and another relation for the first one, UAS is 3/4 and LAS is 2/4. -/
example : Scorable defaultCols 3 [Demo.wdoc] ∧ Scorable defaultCols 3 [Demo.hdoc] ∧
    List.Forall₂ SameSkeleton [Demo.wdoc] [Demo.hdoc] ∧
    (testDataSet id defaultCols 3 [Demo.wdoc] (fun _ => .ok [Demo.hdoc])).map (fun t =>
      ["UAS", "LAS"].map (fun n => (t.get? n.toList).map Score.f1)) = .ok [some (3 / 4), some (2 / 4)] :=
  ⟨Demo.gscorable, Demo.hscorable, Demo.hskeleton, by decide +kernel⟩

/-- The hypotheses of C110 and of C111 on a gold file hold together. -/
example : Scorable defaultCols 10 Demo.goldDocs ∧ List.Forall₂ SameSkeleton Demo.goldDocs Demo.goldDocs ∧
    (∃ t ∈ allTokens Demo.goldDocs, t.isMultiword = true) :=
  ⟨Demo.goldScorable, skeleton_refl _, by decide +kernel⟩

end Verif
