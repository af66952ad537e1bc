import Verif.Proofs.Limit
import Verif.Props.ConlluLine

/-!
# C150: the number of sentences in a document does not matter for the sentences
-/

namespace Verif

theorem flatMap_views {chunks : List (List (List Item))} {ds : List Document} (h : List.Forall₂ DocRaw chunks ds)
    (hc : ∀ c ∈ chunks, c ≠ []) (hne : ∀ its ∈ chunks.flatten, its ≠ []) (hw : ∀ it ∈ chunks.flatten.flatten, it.words ≠ []) :
    sentenceViews ds = chunks.flatten.map (itemsViews 0) := by
  induction h with
  | nil => rfl
  | @cons c d chunks ds h1 _ ih =>
    have e : sentenceViews (d :: ds) = d.sentences.map d.sentenceView ++ sentenceViews ds := rfl
    rw [e, List.flatten_cons, List.map_append,
      ih (fun c hc' => hc c (by simp [hc'])) (fun i hi => hne i (by simp only [List.flatten_cons, List.mem_append]; exact .inr hi))
        (fun i hi => hw i (by simp only [List.flatten_cons, List.flatten_append, List.mem_append]; exact .inr hi))]
    congr 1
    exact (h1.docOf (hc c (by simp))).views (fun i hi => hne i (by simp only [List.flatten_cons, List.mem_append]; exact .inl hi))
      (fun i hi => hw i (by simp only [List.flatten_cons, List.flatten_append, List.mem_append]; exact .inl hi))

theorem SentLines.all_words {cols : Cols} {ls : List Str} {sents : List (List Item)} (h : SentLines cols ls sents) :
    ∀ it ∈ sents.flatten, it.words ≠ [] := by
  intro it hit
  obtain ⟨its, hits, hit⟩ := List.mem_flatten.1 hit
  obtain ⟨l, hl, _⟩ := h.items.1 its hits
  exact hl.words_ne it hit

/-- Reading with another limit, if no word has a negative HEAD. -/
theorem other_limit {m n : Int} {columns : Cols} {text : Str} {ds : List Document} (hn : 0 < n) {sents : List (List Item)}
    {chunks : List (List (List Item))} (h1 : SentLines (withHead columns) (contentLines text) sents)
    (h2 : Chunked m.toNat sents chunks) (h3 : List.Forall₂ DocRaw chunks ds) (hh : ∀ its ∈ sents, WordHeads its) :
    ∃ ds', readFromStr n columns text = .ok (ds', none) ∧ sentenceViews ds' = sentenceViews ds := by
  have hne := h1.items.2
  have hw := h1.all_words
  have hgood : ∀ its ∈ sents, GoodSent its := by
    intro its hits
    rw [← h2.flatten] at hits
    obtain ⟨c, hc, hi⟩ := List.mem_flatten.1 hits
    obtain ⟨d, _, hd⟩ := forall₂_exists_left h3.flip hc
    have hin : ∀ i ∈ c, i ∈ sents := fun i hi => by rw [← h2.flatten]; exact List.mem_flatten.2 ⟨c, hc, hi⟩
    refine DocRaw.good hd (h2.size c hc).1 (fun i hi => hne i (hin i hi)) ?_ (fun i hi => hh i (hin i hi)) its hi
    intro it hit
    obtain ⟨i, hi, hit⟩ := List.mem_flatten.1 hit
    exact hw it (List.mem_flatten.2 ⟨i, hin i hi, hit⟩)
  obtain ⟨chunks', h4⟩ := chunked_exists (n := n.toNat) (by omega) _ sents (Nat.le_refl _)
  have hdocs : ∀ c ∈ chunks', ∃ d, DocRaw c d := by
    intro c hc
    have hin : ∀ i ∈ c, i ∈ sents := fun i hi => by rw [← h4.flatten]; exact List.mem_flatten.2 ⟨c, hc, hi⟩
    obtain ⟨lines, hl⟩ := itemLines_each (cols := withHead columns) (c := c) fun i hi => by
      obtain ⟨l, hl, _⟩ := h1.items.1 i (hin i hi)
      exact ⟨l, hl⟩
    exact docRaw_exists hl (h4.size c hc).1 (fun i hi => hne i (hin i hi)) (fun i hi => hh i (hin i hi))
      (fun i hi => hgood i (hin i hi))
  have hall : ∃ ds', List.Forall₂ DocRaw chunks' ds' := by
    clear h4
    induction chunks' with
    | nil => exact ⟨[], .nil⟩
    | cons c chunks' ih =>
      obtain ⟨d, hd⟩ := hdocs c (by simp)
      obtain ⟨ds', hds'⟩ := ih fun c hc => hdocs c (by simp [hc])
      exact ⟨d :: ds', .cons hd hds'⟩
  obtain ⟨ds', hds'⟩ := hall
  refine ⟨ds', C16_accepts_iff.2 ⟨hn, sents, chunks', h1, h4, hds'⟩, ?_⟩
  rw [flatMap_views hds' (fun c hc => (h4.size c hc).1) (by rw [h4.flatten]; exact hne) (by rw [h4.flatten]; exact hw),
    flatMap_views h3 (fun c hc => (h2.size c hc).1) (by rw [h2.flatten]; exact hne) (by rw [h2.flatten]; exact hw),
    h2.flatten, h4.flatten]

/-- C150: if the column HEAD has no negative number, a text that can be read with one limit can be read with any other limit, and
has the same sentences. -/
theorem C150_partial {m n : Int} {columns : Cols} {text : Str} {ds : List Document} (hneg : NoNegativeHeads text) (hn : 0 < n)
    (h : readFromStr m columns text = .ok (ds, none)) :
    ∃ ds', readFromStr n columns text = .ok (ds', none) ∧ sentenceViews ds' = sentenceViews ds := by
  obtain ⟨_, sents, chunks, h1, h2, h3⟩ := C16_accepts_iff.1 h
  refine other_limit hn h1 h2 h3 ?_
  intro its hits it hit p hp v hv
  obtain ⟨ls, hls, hsub⟩ := h1.items.1 its hits
  obtain ⟨l, hl, _, hline⟩ := hls.word_line it hit p hp
  obtain ⟨x, hx, hnone, hsome⟩ := (C80_line_content hline).head
  cases x with
  | none => rw [hnone rfl] at hv; cases hv
  | some f =>
    obtain ⟨i, hi, hpi⟩ := hsome f rfl
    rw [hv] at hpi
    injection hpi with hpi
    subst hpi
    rcases hx with ⟨_, y, hy, hx⟩ | ⟨_, hx⟩
    · rcases hx with ⟨_, hx⟩ | ⟨_, hx⟩
      · cases hx
      · injection hx with hx
        subst hx
        exact hneg l (hsub l hl) f hy v hi
    · cases hx

/-- C150: a text that can be read with one sentence in each document can be read with any other limit, and has the same
sentences. -/
theorem C150_one {n : Int} {columns : Cols} {text : Str} {ds : List Document} (hn : 0 < n)
    (h : readFromStr 1 columns text = .ok (ds, none)) :
    ∃ ds', readFromStr n columns text = .ok (ds', none) ∧ sentenceViews ds' = sentenceViews ds := by
  obtain ⟨_, sents, chunks, h1, h2, h3⟩ := C16_accepts_iff.1 h
  refine other_limit hn h1 h2 h3 ?_
  intro its hits
  rw [← h2.flatten] at hits
  obtain ⟨c, hc, hi⟩ := List.mem_flatten.1 hits
  obtain ⟨d, _, hd⟩ := forall₂_exists_left h3.flip hc
  have hd : DocRaw c d := hd
  have hc1 : c = [its] := by
    have := (h2.size c hc).2
    cases c with
    | nil => cases hi
    | cons x c =>
      have h0 : c = [] := List.length_eq_zero_iff.1 (by
        have h9 : c.length + 1 ≤ 1 := this
        omega)
      subst h0
      rw [List.mem_singleton] at hi
      rw [hi]
  subst hc1
  have hin : its ∈ sents := by rw [← h2.flatten]; exact hits
  have hdoc := hd.docOf (by simp)
  have hv := hdoc.views (fun i hi => by rw [List.mem_singleton] at hi; subst hi; exact h1.items.2 i hin)
    (fun it hit => h1.all_words it (List.mem_flatten.2 ⟨its, hin, by simpa using hit⟩))
  obtain ⟨s, r, hs, hstart, _, hr⟩ := hdoc.bounds
  cases hr
  rw [hs] at hv
  simp only [List.map_cons, List.map_nil, List.cons.injEq, and_true] at hv
  have hbv : BuiltValid d := by
    obtain ⟨toks, ss, _, _, _, h4⟩ := hd
    exact ⟨_, _, _, h4⟩
  have hmem : s ∈ d.sentences := by rw [hs]; simp
  have hcanon := hbv.built.docOk.canon_slice hmem
  have hheads : ∀ t ∈ d.sentenceTokens s, ∀ v, t.headSent = some v → -1 ≤ v := by
    intro t ht v hv'
    have hct := hcanon t ht
    rcases hbv.trees s hmem with hf | hf
    · rw [(hf t ht).2] at hv'; cases hv'
    · have htree := (C07_tree_heads hf).2 t ht
      cases hroot : t.isRoot with
      | false =>
        obtain ⟨a, ha, _⟩ := htree hroot
        rw [hv'] at ha
        injection ha with ha
        omega
      | true =>
        rcases hct with ⟨h5, _⟩ | ⟨h5, _⟩ | ⟨w, h5, h6⟩
        · rw [hv'] at h5; cases h5
        · rw [hv'] at h5; injection h5 with h5; omega
        · unfold Token.isRoot at hroot
          rw [hv'] at h5
          injection h5 with h5
          subst h5
          rw [h6, hv', hstart] at hroot
          simp at hroot
          omega
  intro it hit p hp v hv'
  have h7 : (p.head.map (· - 1)) ∈ (its.flatMap Item.words).map (fun p => p.head.map (· - 1)) :=
    List.mem_map_of_mem (f := fun p : PTok => p.head.map (· - 1)) (List.mem_flatMap.2 ⟨it, hit, hp⟩)
  rw [← itemsViews_heads 0, ← hv, ← sentence_heads, List.mem_map] at h7
  obtain ⟨t, ht, h8⟩ := h7
  rw [hv'] at h8
  have h9 : -1 ≤ v - 1 := hheads t ht _ h8
  omega

namespace Demo

def limitLine (n form head : String) : Str := (n ++ "\t" ++ form ++ "\tx\tX\t_\t_\t" ++ head ++ "\tdep\t_\tSpaceAfter=No\n").toList

/-- Three sentences, the last one with a multiword token. -/
def limitText : Str := limitLine "1" "a" "0" ++ "\n".toList ++ limitLine "1" "b" "2" ++ limitLine "2" "c" "0" ++ "\n".toList ++
  "1-2\tde\t_\t_\t_\t_\t_\t_\t_\t_\n".toList ++ limitLine "1" "d" "0" ++ limitLine "2" "e" "1" ++ "\n".toList

/-- The head of the second sentence is negative. -/
def negativeText : Str := limitLine "1" "a" "0" ++ "\n".toList ++ limitLine "1" "b" "-1" ++ "\n".toList

/-- The forms in the documents, and the exception. -/
def limitForms (limit : Int) (text : Str) : Option (List (List (List Str)) × Option Err) :=
  (readFromStr limit defaultCols text).toOption.map fun r =>
    (r.1.map (fun d => d.sentences.map fun s => (d.sentenceTokens s).map (tokText d.text)), r.2)

theorem limitText_heads : NoNegativeHeads limitText := by
  have h : ∀ l ∈ contentLines limitText, ∀ f, (splitOn1 '\t' l)[6]? = some f →
      f = "_".toList ∨ f = "0".toList ∨ f = "1".toList ∨ f = "2".toList := by
    have : (contentLines limitText).all (fun l => match (splitOn1 '\t' l)[6]? with
        | none => true
        | some f => f == "_".toList || f == "0".toList || f == "1".toList || f == "2".toList) = true := by decide +kernel
    intro l hl f hf
    have := List.all_eq_true.1 this l hl
    rw [hf] at this
    simpa [or_assoc] using this
  intro l hl f hf n hn
  rcases h l hl f hf with rfl | rfl | rfl | rfl
  · have : (pyInt "_".toList).isOk = false := by decide +kernel
    rw [hn] at this
    cases this
  · have : pyInt "0".toList = .ok 0 := by decide +kernel
    rw [hn] at this; injection this with this; omega
  · have : pyInt "1".toList = .ok 1 := by decide +kernel
    rw [hn] at this; injection this with this; omega
  · have : pyInt "2".toList = .ok 2 := by decide +kernel
    rw [hn] at this; injection this with this; omega

theorem limit_forms :
    limitForms 1 limitText = some ([[["a".toList]], [["b".toList, "c".toList]], [["d".toList, "e".toList]]], none) ∧
    limitForms 2 limitText = some ([[["a".toList], ["b".toList, "c".toList]], [["d".toList, "e".toList]]], none) :=
  ⟨by decide +kernel, by decide +kernel⟩

theorem negative_forms : limitForms 1 negativeText = some ([[["a".toList]]], some .value) ∧
    limitForms 2 negativeText = some ([[["a".toList], ["b".toList]]], none) :=
  ⟨by decide +kernel, by decide +kernel⟩

end Demo

/-- A text of three sentences. -/
example : ∃ ds ds', readFromStr 2 defaultCols Demo.limitText = .ok (ds, none) ∧
    readFromStr 3 defaultCols Demo.limitText = .ok (ds', none) ∧ sentenceViews ds' = sentenceViews ds := by
  have h := Demo.limit_forms.2
  unfold Demo.limitForms at h
  cases hr : readFromStr 2 defaultCols Demo.limitText with
  | error e => rw [hr] at h; cases h
  | ok r =>
    obtain ⟨ds, e⟩ := r
    rw [hr] at h
    simp only [Except.toOption, Option.map_some, Option.some.injEq, Prod.mk.injEq] at h
    obtain ⟨_, rfl⟩ := h
    obtain ⟨ds', h1, h2⟩ := C150_partial (n := 3) Demo.limitText_heads (by decide) hr
    exact ⟨ds, ds', rfl, h1, h2⟩

/-- The same text, read sentence by sentence. -/
example : ∃ ds ds', readFromStr 1 defaultCols Demo.limitText = .ok (ds, none) ∧
    readFromStr 2 defaultCols Demo.limitText = .ok (ds', none) ∧ sentenceViews ds' = sentenceViews ds := by
  have h := Demo.limit_forms.1
  unfold Demo.limitForms at h
  cases hr : readFromStr 1 defaultCols Demo.limitText with
  | error e => rw [hr] at h; cases h
  | ok r =>
    obtain ⟨ds, e⟩ := r
    rw [hr] at h
    simp only [Except.toOption, Option.map_some, Option.some.injEq, Prod.mk.injEq] at h
    obtain ⟨_, rfl⟩ := h
    obtain ⟨ds', h1, h2⟩ := C150_one (n := 2) (by decide) hr
    exact ⟨ds, ds', rfl, h1, h2⟩

/-- C150 does not hold for negative heads: such a word is taken for a root if the number of words before its sentence in the
document fits. -/
theorem C150_negative_refuted : ¬ ∀ (m n : Int) (columns : Cols) (text : Str) (ds : List Document), 0 < n →
    readFromStr m columns text = .ok (ds, none) →
    ∃ ds', readFromStr n columns text = .ok (ds', none) ∧ sentenceViews ds' = sentenceViews ds := by
  intro hall
  have h2 := Demo.negative_forms.2
  have h1 := Demo.negative_forms.1
  unfold Demo.limitForms at h1 h2
  cases hr : readFromStr 2 defaultCols Demo.negativeText with
  | error e => rw [hr] at h2; cases h2
  | ok r =>
    obtain ⟨ds, e⟩ := r
    rw [hr] at h2
    simp only [Except.toOption, Option.map_some, Option.some.injEq, Prod.mk.injEq] at h2
    obtain ⟨_, rfl⟩ := h2
    obtain ⟨ds', h3, _⟩ := hall 2 1 defaultCols Demo.negativeText ds (by decide) hr
    rw [h3] at h1
    simp only [Except.toOption, Option.map_some, Option.some.injEq, Prod.mk.injEq, reduceCtorEq, and_false] at h1

end Verif
