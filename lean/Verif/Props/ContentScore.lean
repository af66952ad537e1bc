import Verif.Model.EvalMain
import Verif.Props.FileScore
import Verif.Props.UdSame2

/-!
# CLAS and WeightedLAS of a parser (C152)
-/

namespace Verif

/-! ### Specification -/

/-- The relations of function words and punctuation. -/
def functional : List Str := ["aux", "case", "cc", "clf", "cop", "det", "mark", "punct"].map String.toList

/-- The arcs whose relation is that of a content word. -/
def contentArcs (arcs : List (Int × Str)) : List (Int × Str) := arcs.filter fun a => a.2 ∉ functional

/-- The pairs of arcs that are at the same place and the same. -/
def sameArcs (a b : List (Int × Str)) : List (Int × Str) := ((a.zip b).filter fun p => p.1 = p.2).map Prod.fst

/-- The weight of a relation in a table; relations that are not in the table have weight 1. -/
def relWeight (ws : Dict Str Rat) (rel : Str) : Rat := (ws.get? rel).getD 1

/-- The sum of the weights of the relations. -/
def arcsWeight (ws : Dict Str Rat) (arcs : List (Int × Str)) : Rat := (arcs.map fun a => relWeight ws a.2).sum

/-! ### Proofs -/

/-- The arcs of the words of two treebanks that were made from documents with the same words. -/
theorem eval_arcs {columns columns' : Cols} {R R' : Str → Bool → Nat → Token → List Str → Prop}
    (hR : ∀ text, ShowsArc (withHead columns) (R text)) (hR' : ∀ text, ShowsArc (withHead columns') (R' text))
    {gold pred : List Document} (hs : List.Forall₂ SameSkeleton gold pred)
    {ud ud' : UD} {sents sents' : List (List UdToken)} (hu : UdOf sents ud) (hu' : UdOf sents' ud')
    (h1 : List.Forall₂ (fun (p : Str × List Token) us => TokensAs (R p.1) p.1 0 p.2 us) (sentencesOf gold) sents)
    (h2 : List.Forall₂ (fun (p : Str × List Token) us => TokensAs (R' p.1) p.1 0 p.2 us) (sentencesOf pred) sents')
    (p1 : ∀ a ∈ allArcs columns gold, 0 ≤ a.1) (p2 : ∀ a ∈ allArcs columns' pred, 0 ≤ a.1) (wt : Str → Rat) :
    (ud.words.map fun w => wt (colOf w.columns colDEPREL)).sum = ((allArcs columns gold).map fun a => wt a.2).sum ∧
    (ud'.words.map fun w => wt (colOf w.columns colDEPREL)).sum = ((allArcs columns' pred).map fun a => wt a.2).sum ∧
    agreeingWeight (fun w => wt (colOf w.columns colDEPREL))
        (fun g s => g.parent = s.parent ∧ ColsAgree [colDEPREL] g s) ud.words ud'.words =
      ((sameArcs (allArcs columns gold) (allArcs columns' pred)).map fun a => wt a.2).sum := by
  have a1 := words_arcs hu (sentence_arcs hR h1)
  have a2 := words_arcs hu' (sentence_arcs hR' h2)
  have hq : List.Forall₂ (fun a b : Nat × Int × Str => a.1 = b.1)
      (placeArcs 0 ((sentencesOf gold).map fun p => writtenArcs (withHead columns) 0 p.2))
      (placeArcs 0 ((sentencesOf pred).map fun p => writtenArcs (withHead columns') 0 p.2)) := by
    refine placeArcs_same ?_ 0
    rw [List.forall₂_map_left_iff, List.forall₂_map_right_iff]
    exact (skeleton_sentences hs).imp fun a b h => by
      rw [writtenArcs_length, writtenArcs_length]; exact h.2.length_eq
  have s1 : (placeArcs 0 ((sentencesOf gold).map fun p => writtenArcs (withHead columns) 0 p.2)).map Prod.snd = allArcs columns gold := by
    rw [placeArcs_snd, allArcs, List.flatMap_def]
  have s2 : (placeArcs 0 ((sentencesOf pred).map fun p => writtenArcs (withHead columns') 0 p.2)).map Prod.snd = allArcs columns' pred := by
    rw [placeArcs_snd, allArcs, List.flatMap_def]
  generalize placeArcs 0 ((sentencesOf gold).map fun p => writtenArcs (withHead columns) 0 p.2) = A at *
  generalize placeArcs 0 ((sentencesOf pred).map fun p => writtenArcs (withHead columns') 0 p.2) = B at *
  rw [← s1] at p1 ⊢
  rw [← s2] at p2 ⊢
  have tot : ∀ {A : List (Nat × Int × Str)} {ws : List UDWord},
      List.Forall₂ (fun a w => LinkIs a.1 a.2.1 w.parent ∧ colOf w.columns colDEPREL = a.2.2) A ws →
      (ws.map fun w => wt (colOf w.columns colDEPREL)).sum = ((A.map Prod.snd).map fun a => wt a.2).sum := by
    intro A ws h
    induction h with
    | nil => rfl
    | cons h _ ih => simp only [List.map_cons, List.sum_cons, ih, h.2]
  refine ⟨tot a1, tot a2, ?_⟩
  clear s1 s2 h1 h2 hu hu' hs
  unfold agreeingWeight sameArcs
  revert a1 a2
  generalize ud.words = ws
  generalize ud'.words = ws'
  intro a1 a2
  induction hq generalizing ws ws' with
  | nil => cases a1; simp
  | @cons x y A B q _ ih =>
    cases a1 with | cons b1 a1 =>
    cases a2 with | cons b2 a2 =>
    rename_i w ws w' ws'
    have ih := ih (fun a ha => p1 a (List.mem_cons_of_mem _ ha)) (fun a ha => p2 a (List.mem_cons_of_mem _ ha)) _ _ a1 a2
    have x0 : 0 ≤ x.2.1 := p1 x.2 (by simp)
    have y0 : 0 ≤ y.2.1 := p2 y.2 (by simp)
    have hiff : (w.parent = w'.parent ∧ ColsAgree [colDEPREL] w w') ↔ x.2 = y.2 := by
      obtain ⟨x1, x2⟩ := b1
      obtain ⟨y1, y2⟩ := b2
      rw [← q] at y1
      rw [x1.agree y1 x0 y0, Prod.ext_iff]
      refine and_congr Iff.rfl ?_
      unfold ColsAgree
      rw [← x2, ← y2]
      simp
    simp only [List.map_cons, List.zip_cons_cons, List.filter_cons, decide_eq_true_eq]
    by_cases hf : x.2 = y.2
    · rw [if_pos (by simpa using hiff.2 hf), if_pos hf]
      simp only [List.map_cons, List.sum_cons, b1.2]
      rw [ih]
    · rw [if_neg (fun h => hf (hiff.1 (by simpa using h))), if_neg hf]
      exact ih

/-- The weight of content words, by relation. -/
def contentWeight (rel : Str) : Rat := if rel ∈ functional then 0 else 1

theorem clasWeight_rel : clasWeight = fun w => contentWeight (colOf w.columns colDEPREL) := rfl

theorem content_count (arcs : List (Int × Str)) :
    (arcs.map fun a => contentWeight a.2).sum = ((contentArcs arcs).length : Rat) := by
  induction arcs with
  | nil => rfl
  | cons a arcs ih =>
    rw [List.map_cons, List.sum_cons, ih]
    unfold contentArcs contentWeight
    rw [List.filter_cons]
    by_cases h : a.2 ∈ functional
    · simp [h]
    · simp only [h, if_false, not_false_eq_true, decide_true, if_true, List.length_cons]
      push_cast
      ring

theorem table_clas (m : Metrics) : m.table.get? "CLAS".toList = some m.clas := by
  unfold Metrics.table
  rw [Dict.get?_mem, Dict.ofList_entries]
  · apply List.mem_append_left
    repeat (first | exact .head _ | apply List.Mem.tail)
  · cases m.weighted
    · simp only [Option.toList_none, List.map_nil, List.append_nil, List.map_cons]; decide +kernel
    · simp only [Option.toList_some, List.map_cons, List.map_nil, List.cons_append, List.nil_append]; decide +kernel

/-- C152: CLAS of a parser whose documents differ from the gold documents in annotations only: it is LAS with
the arcs of content words alone.  The gold arcs and the parser's arcs are counted by their own relations, the
right ones are those that are the same with the relation of a content word. -/
theorem C152_clas {lower : Str → Str} {columns : Cols} {depth : Nat} {gold pred : List Document}
    {tag : List Document → Res (List Document)} (h2 : 2 ≤ depth) (hg : Scorable columns depth gold)
    (hp : Scorable columns depth pred) (hs : List.Forall₂ SameSkeleton gold pred)
    (ht : ∀ blind, prepareTestData gold = .ok blind → tag blind = .ok pred) :
    ∃ table s, testDataSet lower columns depth gold tag = .ok table ∧ table.get? "CLAS".toList = some s ∧
      IsScore s (contentArcs (allArcs columns gold)).length (contentArcs (allArcs columns pred)).length
        (contentArcs (sameArcs (allArcs columns gold) (allArcs columns pred))).length
        (some (contentArcs (allArcs columns gold)).length) := by
  obtain ⟨o1, u1, s1, w1, l1, q1, r1⟩ := C76_valid_loads h2 hg.valid hg.loadable hg.heads hg.short hg.feats
  obtain ⟨o2, u2, s2, w2, l2, q2, r2⟩ := C76_valid_loads h2 hp.valid hp.loadable hp.heads hp.short hp.feats
  obtain ⟨m, hm, _⟩ := eval_documents (lower := lower) (columns := columns) (columns' := columns)
    (fun text => ⟨LoadedRow.showsForm _ text, LoadedRow.showsArc _ text⟩)
    (fun text => ⟨LoadedRow.showsForm _ text, LoadedRow.showsArc _ text⟩)
    (fun d hd => (hg.valid d hd).built) hs ⟨_, _, l1⟩ ⟨_, _, l2⟩ q1 q2 r1 r2 (allArcs_nonneg hg.heads) (allArcs_nonneg hp.heads)
  obtain ⟨_, hl⟩ := sameLook_of_skeleton (lower := lower) (fun t => LoadedRow.showsForm (withHead columns) t)
    (fun t => LoadedRow.showsForm (withHead columns) t) hs q1 q2 r1 r2
  have hc := (C68_weighted ⟨_, _, l1⟩ ⟨_, _, l2⟩ hl hm).1
  obtain ⟨e1, e2, e3⟩ := eval_arcs (fun t => LoadedRow.showsArc (withHead columns) t)
    (fun t => LoadedRow.showsArc (withHead columns) t) hs q1 q2 r1 r2 (allArcs_nonneg hg.heads)
    (allArcs_nonneg hp.heads) contentWeight
  rw [clasWeight_rel, e1, e2, e3, content_count, content_count, content_count] at hc
  obtain ⟨blind, hblind, _⟩ := C53_blind (fun d hd => (hg.valid d hd).built)
  refine ⟨m.table, _, ?_, table_clas m, hc⟩
  unfold testDataSet testTagger
  rw [hblind]
  simp only [ht blind hblind, convertToInternal, w1, w2, l1, l2, hm]

/-- C152: the same for a gold file. -/
theorem C152_clas_file {lower : Str → Str} {depth : Nat} {text : Str} {docs pred : List Document} {ud : UD}
    {tag : List Document → Res (List Document)} (hr : '\r' ∉ text) (hc : CommentsPlain text)
    (h1 : readFromStr 1 defaultCols text = .ok (docs, none)) (h2 : loadConllu depth text = .ok ud) (hd : 2 ≤ depth)
    (hp : Scorable defaultCols depth pred) (hs : List.Forall₂ SameSkeleton docs pred)
    (ht : ∀ blind, prepareTestData docs = .ok blind → tag blind = .ok pred) :
    ∃ table s, testFile lower depth text tag = .ok table ∧ table.get? "CLAS".toList = some s ∧
      IsScore s (contentArcs (allArcs defaultCols docs)).length (contentArcs (allArcs defaultCols pred)).length
        (contentArcs (sameArcs (allArcs defaultCols docs) (allArcs defaultCols pred))).length
        (some (contentArcs (allArcs defaultCols docs)).length) := by
  obtain ⟨o2, u2, s2, w2, l2, q2, r2⟩ := C76_valid_loads hd hp.valid hp.loadable hp.heads hp.short hp.feats
  obtain ⟨sents, k1, k2, k3⟩ := read_load hr hc h1 h2
  obtain ⟨v1, v2, v3, v4⟩ := read_again hr hc h1 h2
  obtain ⟨m, hm, _⟩ := eval_documents (lower := lower) (columns := defaultCols) (columns' := defaultCols)
    (fun text => ⟨FileRow.showsForm text, FileRow.showsArc text⟩)
    (fun text => ⟨LoadedRow.showsForm _ text, LoadedRow.showsArc _ text⟩)
    (fun d hd => (v1 d hd).built) hs ⟨_, _, h2⟩ ⟨_, _, l2⟩ k2 q2 k3 r2 (allArcs_nonneg v3) (allArcs_nonneg hp.heads)
  obtain ⟨_, hl⟩ := sameLook_of_skeleton (lower := lower) FileRow.showsForm
    (fun t => LoadedRow.showsForm (withHead defaultCols) t) hs k2 q2 k3 r2
  have hcl := (C68_weighted ⟨_, _, h2⟩ ⟨_, _, l2⟩ hl hm).1
  obtain ⟨e1, e2, e3⟩ := eval_arcs FileRow.showsArc
    (fun t => LoadedRow.showsArc (withHead defaultCols) t) hs k2 q2 k3 r2 (allArcs_nonneg v3)
    (allArcs_nonneg hp.heads) contentWeight
  rw [clasWeight_rel, e1, e2, e3, content_count, content_count, content_count] at hcl
  obtain ⟨blind, hblind, _⟩ := C53_blind (fun d hd => (v1 d hd).built)
  refine ⟨m.table, _, ?_, table_clas m, hcl⟩
  unfold testFile dataSetDocs testTagger
  rw [h1]
  simp only [hblind, ht blind hblind, convertToInternal, w2, l2, h2, hm]

/-- C152: WeightedLAS, as the evaluation program computes it for a gold file, the file written for a parser's
documents and a weights file: the same with weights instead of numbers. -/
theorem C152_weighted {float : Str → Res Rat} {lower : Str → Str} {depth verbose : Nat} {text out weights : Str}
    {docs pred : List Document} {ud : UD} {ws : Dict Str Rat} (hr : '\r' ∉ text) (hc : CommentsPlain text)
    (h1 : readFromStr 1 defaultCols text = .ok (docs, none)) (h2 : loadConllu depth text = .ok ud) (hd : 2 ≤ depth)
    (hp : Scorable defaultCols depth pred) (hs : List.Forall₂ SameSkeleton docs pred)
    (ho : writeToStr defaultCols pred = .ok out) (hw : loadWeights float (some (fileLines weights)) = .ok (some ws)) :
    ∃ m s, evaluateWrapper float lower depth ⟨text, out, some weights, verbose⟩ = .ok m ∧ m.weighted = some s ∧
      IsScore s (arcsWeight ws (allArcs defaultCols docs)) (arcsWeight ws (allArcs defaultCols pred))
        (arcsWeight ws (sameArcs (allArcs defaultCols docs) (allArcs defaultCols pred)))
        (some (arcsWeight ws (allArcs defaultCols docs))) := by
  obtain ⟨o2, u2, s2, w2, l2, q2, r2⟩ := C76_valid_loads hd hp.valid hp.loadable hp.heads hp.short hp.feats
  rw [ho] at w2
  obtain rfl := Except.ok.inj w2
  obtain ⟨sents, k1, k2, k3⟩ := read_load hr hc h1 h2
  obtain ⟨v1, v2, v3, v4⟩ := read_again hr hc h1 h2
  obtain ⟨hch, hl⟩ := sameLook_of_skeleton (lower := lower) FileRow.showsForm
    (fun t => LoadedRow.showsForm (withHead defaultCols) t) hs k2 q2 k3 r2
  obtain ⟨m, hm, _⟩ := C68_wordwise (weights := some ws) ⟨_, _, h2⟩ ⟨_, _, l2⟩ hch hl
  obtain ⟨s, hs1, hs2⟩ := (C68_weighted ⟨_, _, h2⟩ ⟨_, _, l2⟩ hl hm).2 ws rfl
  obtain ⟨e1, e2, e3⟩ := eval_arcs FileRow.showsArc
    (fun t => LoadedRow.showsArc (withHead defaultCols) t) hs k2 q2 k3 r2 (allArcs_nonneg v3)
    (allArcs_nonneg hp.heads) (relWeight ws)
  have ht : tableWeight ws = fun w => relWeight ws (colOf w.columns colDEPREL) := rfl
  rw [ht, e1, e2, e3] at hs2
  refine ⟨m, s, ?_, hs1, hs2⟩
  unfold evaluateWrapper
  simp only [h2, l2, Option.map_some, hw, hm]

namespace Demo

/-- The hypotheses of C152 hold for the documents of C111. -/
example : Scorable defaultCols 3 [wdoc] ∧ Scorable defaultCols 3 [hdoc] ∧
    List.Forall₂ SameSkeleton [wdoc] [hdoc] ∧
    (testDataSet id defaultCols 3 [wdoc] (fun _ => .ok [hdoc])).map (fun t =>
      ["LAS", "CLAS"].map (fun n => (t.get? n.toList).map Score.f1)) = .ok [some (2 / 4), some (2 / 4)] :=
  ⟨gscorable, hscorable, hskeleton, by decide +kernel⟩

def rootAsCase (t : Token) : Token :=
  if t.deprel = some "root".toList then { t with deprel := some "case".toList } else t

/-- The documents of the gold file with a relation of function words for a content word: LAS falls, CLAS has
full precision, because the word is no longer counted for the parser. -/
def goldCase : List Document :=
  goldDocs.map fun d => ⟨d.text, d.tokens.map rootAsCase, d.sentences⟩

example : (testFile id 10 goldFile (fun _ => .ok goldCase)).map (fun t =>
      ["LAS", "CLAS"].map (fun n => (t.get? n.toList).map fun s => (s.precision, s.recall, s.f1))) =
    .ok [some (3 / 4, 3 / 4, 3 / 4), some (1, 1 / 2, 2 / 3)] := by decide +kernel

/-- A weights file. -/
example : loadWeights (fun s => if s = "0.5".toList then .ok (1 / 2) else .error .value)
      (some (fileLines "# weights\ndet 0.5\n".toList)) = .ok (some (Dict.ofList [("det".toList, 1 / 2)])) ∧
    arcsWeight (Dict.ofList [("det".toList, 1 / 2)]) (allArcs defaultCols goldDocs) = 7 / 2 ∧
    (contentArcs (allArcs defaultCols goldDocs)).length = 2 :=
  ⟨by decide +kernel, by decide +kernel, by decide +kernel⟩

end Demo

/-- C152: a content word that the parser takes for a function word counts against the recall only: the parser is
wrong about a content word and CLAS has precision 1. -/
theorem C152_hidden : ∃ pred : List Document, List.Forall₂ SameSkeleton Demo.goldDocs pred ∧
    (testFile id 10 Demo.goldFile (fun _ => .ok pred)).map (fun t =>
      (t.get? "CLAS".toList).map fun s => (s.precision, s.recall)) = .ok (some (1, 1 / 2)) ∧
    (testFile id 10 Demo.goldFile (fun _ => .ok pred)).map (fun t =>
      (t.get? "LAS".toList).map fun s => (s.precision, s.recall)) = .ok (some (3 / 4, 3 / 4)) :=
  ⟨Demo.goldCase, by
    unfold Demo.goldCase
    rw [List.forall₂_map_right_iff]
    exact List.forall₂_same.mpr fun d _ => ⟨rfl, rfl, by
      rw [List.forall₂_map_right_iff]
      refine List.forall₂_same.mpr fun t _ => ?_
      unfold Demo.rootAsCase
      split <;> exact ⟨rfl, rfl, rfl, rfl⟩⟩, by decide +kernel, by decide +kernel⟩

end Verif
