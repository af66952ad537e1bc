import Verif.Proofs.Score
import Mathlib.Tactic.FieldSimp
import Mathlib.Tactic.Positivity
import Mathlib.Tactic.Linarith
import Mathlib.Tactic.Ring

/-! # Properties C77 and C79: the scores of a tagger -/

namespace Verif

/-! ### C77 -/

theorem written_withHead {columns : Cols} {c : Nat} (hc : c ≠ colHEAD) (v : Option Str) :
    written (withHead columns) c v = written columns c v := by
  unfold written withHead
  split <;> simp [hc]

theorem colsAgree_one {c : Nat} {w w' : UDWord} : ColsAgree [c] w w' ↔ colOf w.columns c = colOf w'.columns c := by
  unfold ColsAgree
  constructor
  · exact fun h => h c List.mem_cons_self
  · rintro h x hx
    rw [List.mem_singleton.mp hx]; exact h

theorem colsAgree_cons {c : Nat} {cs : List Nat} {w w' : UDWord} :
    ColsAgree (c :: cs) w w' ↔ colOf w.columns c = colOf w'.columns c ∧ ColsAgree cs w w' := by
  unfold ColsAgree
  exact List.forall_mem_cons

theorem writtenFeats_of {cols : Cols} {text : Str} {m : Bool} {k : Nat} {t : Token} {r : List Str}
    (h : LoadedRow cols text m k t r) : colOf r colFEATS = writtenFeats t := by
  unfold writtenFeats
  cases hp : t.pos with
  | none => exact h.noFeats hp
  | some p => exact h.feats p hp

theorem table_get (m : Metrics) : m.table.get? "UPOS".toList = some m.upos ∧ m.table.get? "XPOS".toList = some m.xpos ∧
    m.table.get? "Feats".toList = some m.feats ∧ m.table.get? "AllTags".toList = some m.allTags ∧
    m.table.get? "Lemmas".toList = some m.lemmas ∧ m.table.get? "UAS".toList = some m.uas ∧
    m.table.get? "LAS".toList = some m.las ∧ m.table.get? "Words".toList = some m.words := by
  have hn : ((["Tokens", "Sentences", "Words", "UPOS", "XPOS", "Feats", "AllTags", "Lemmas", "UAS", "LAS", "CLAS"] ++
      (m.weighted.toList.map fun _ => "WeightedLAS")).map String.toList).Nodup := by
    cases m.weighted
    · decide +kernel
    · simp only [Option.toList_some, List.map_cons, List.map_nil]; decide +kernel
  rw [List.map_append, List.map_map] at hn
  have key : ∀ k v, (k, v) ∈ [("Tokens".toList, m.tokens), ("Sentences".toList, m.sentences),
      ("Words".toList, m.words), ("UPOS".toList, m.upos), ("XPOS".toList, m.xpos),
      ("Feats".toList, m.feats), ("AllTags".toList, m.allTags), ("Lemmas".toList, m.lemmas),
      ("UAS".toList, m.uas), ("LAS".toList, m.las), ("CLAS".toList, m.clas)] → m.table.get? k = some v := by
    intro k v h
    unfold Metrics.table
    rw [Dict.get?_mem, Dict.ofList_entries]
    · exact List.mem_append_left _ h
    · rw [List.map_append, List.map_map]
      exact hn
  refine ⟨key _ _ ?_, key _ _ ?_, key _ _ ?_, key _ _ ?_, key _ _ ?_, key _ _ ?_, key _ _ ?_, key _ _ ?_⟩ <;>
    repeat (first | exact .head _ | apply List.Mem.tail)

/-- C77: the scores of a tagger whose documents differ from the gold documents in annotations only.  For
each of UPOS, XPOS, Feats, AllTags and Lemmas, precision, recall, F1 and aligned accuracy are the share of
tokens for which the tagger's value is written like the gold value. -/
theorem C77_tag_scores {lower : Str → Str} {columns : Cols} {depth : Nat} {gold pred : List Document}
    {tag : List Document → Res (List Document)} (h2 : 2 ≤ depth) (hg : Scorable columns depth gold)
    (hp : Scorable columns depth pred) (hs : List.Forall₂ SameSkeleton gold pred)
    (ht : ∀ blind, prepareTestData gold = .ok blind → tag blind = .ok pred) :
    ∃ table, testDataSet lower columns depth gold tag = .ok table ∧
      ∀ name f, (name, f) ∈ metricValues columns → ∃ s, table.get? name = some s ∧
        IsScore s (allTokens gold).length (allTokens gold).length (samePlaces f (allTokens gold) (allTokens pred))
          (some (allTokens gold).length) := by
  obtain ⟨o1, u1, s1, w1, l1, q1, r1⟩ := C76_valid_loads h2 hg.valid hg.loadable hg.heads hg.short hg.feats
  obtain ⟨o2, u2, s2, w2, l2, q2, r2⟩ := C76_valid_loads h2 hp.valid hp.loadable hp.heads hp.short hp.feats
  obtain ⟨hc, hl⟩ := sameLook_of_skeleton (lower := lower) (fun text => LoadedRow.showsForm (withHead columns) text)
    (fun text => LoadedRow.showsForm (withHead columns) text) hs q1 q2 r1 r2
  obtain ⟨m, hm, _, hcols, _⟩ := C68_wordwise (weights := none) ⟨_, _, l1⟩ ⟨_, _, l2⟩ hc hl
  have a1 := words_of_loads (R := fun text => LoadedRow (withHead columns) text) (fun d hd => (hg.valid d hd).built) q1 r1
  have a2 := words_of_loads (R := fun text => LoadedRow (withHead columns) text) (fun d hd => (hp.valid d hd).built) q2 r2
  obtain ⟨blind, hblind, _⟩ := C53_blind (fun d hd => (hg.valid d hd).built)
  refine ⟨m.table, ?_, ?_⟩
  · unfold testDataSet testTagger
    rw [hblind]
    simp only [ht blind hblind, convertToInternal, w1, w2, l1, l2, hm]
  · have hn : (allTokens gold).length = u1.words.length := a1.length_eq
    rw [hn]
    intro name f hf
    unfold metricValues at hf
    simp only [List.mem_cons, List.not_mem_nil, or_false, Prod.mk.injEq] at hf
    rcases hf with ⟨rfl, rfl⟩ | ⟨rfl, rfl⟩ | ⟨rfl, rfl⟩ | ⟨rfl, rfl⟩ | ⟨rfl, rfl⟩
    · refine ⟨m.upos, (table_get m).1, ?_⟩
      have := hcols [colUPOS] m.upos (by simp)
      rwa [agreeing_eq (f := fun t : Token => [written columns colUPOS (t.pos.bind Pos.upos)]) ?_ a1 a2] at this
      rintro t u w w' ⟨x1, m1, k1, b1⟩ ⟨x2, m2, k2, b2⟩
      rw [colsAgree_one, b1.upos, b2.upos, written_withHead (by decide), written_withHead (by decide), List.singleton_inj]
    · refine ⟨m.xpos, (table_get m).2.1, ?_⟩
      have := hcols [colXPOS] m.xpos (by simp)
      rwa [agreeing_eq (f := fun t : Token => [written columns colXPOS (t.pos.bind Pos.xpos)]) ?_ a1 a2] at this
      rintro t u w w' ⟨x1, m1, k1, b1⟩ ⟨x2, m2, k2, b2⟩
      rw [colsAgree_one, b1.xpos, b2.xpos, written_withHead (by decide), written_withHead (by decide), List.singleton_inj]
    · refine ⟨m.feats, (table_get m).2.2.1, ?_⟩
      have := hcols [colFEATS] m.feats (by simp)
      rwa [agreeing_eq (f := fun t : Token => [writtenFeats t]) ?_ a1 a2] at this
      rintro t u w w' ⟨x1, m1, k1, b1⟩ ⟨x2, m2, k2, b2⟩
      rw [colsAgree_one, writtenFeats_of b1, writtenFeats_of b2, List.singleton_inj]
    · refine ⟨m.allTags, (table_get m).2.2.2.1, ?_⟩
      have := hcols [colUPOS, colXPOS, colFEATS] m.allTags (by simp)
      rwa [agreeing_eq (f := fun t : Token => [written columns colUPOS (t.pos.bind Pos.upos),
        written columns colXPOS (t.pos.bind Pos.xpos), writtenFeats t]) ?_ a1 a2] at this
      rintro t u w w' ⟨x1, m1, k1, b1⟩ ⟨x2, m2, k2, b2⟩
      rw [colsAgree_cons, colsAgree_cons, colsAgree_one, b1.upos, b2.upos, b1.xpos, b2.xpos, writtenFeats_of b1,
        writtenFeats_of b2, written_withHead (by decide), written_withHead (by decide), written_withHead (by decide),
        written_withHead (by decide), List.cons_eq_cons, List.cons_eq_cons, List.singleton_inj]
    · refine ⟨m.lemmas, (table_get m).2.2.2.2.1, ?_⟩
      have := hcols [colLEMMA] m.lemmas (by simp)
      rwa [agreeing_eq (f := fun t : Token => [written columns colLEMMA t.lemma']) ?_ a1 a2] at this
      rintro t u w w' ⟨x1, m1, k1, b1⟩ ⟨x2, m2, k2, b2⟩
      rw [colsAgree_one, b1.lemma', b2.lemma', written_withHead (by decide), written_withHead (by decide), List.singleton_inj]

namespace Demo

/-- `wdoc` with another part of speech for the second word and another lemma for the last one. -/
def pdoc : Document :=
  { wdoc with tokens := [{ w0 with headDoc := some 1 },
      { w1 with headDoc := some (-1), pos := some { wpos with upos := some "Y".toList } },
      { w2 with headDoc := some 1 }, { w3 with headDoc := some (-1), lemma' := some "f".toList }] }

theorem pvalid : BuiltValid pdoc := ⟨pdoc.text, pdoc.tokens, some pdoc.sentences, by decide +kernel⟩

theorem pdocLoadable : Loadable pdoc := by
  refine ⟨?_, by decide +kernel, by decide +kernel⟩
  have h1 : ∀ t ∈ pdoc.tokens, Plain (tokText pdoc.text t) ∧ Plain (docText pdoc.text t) ∧
      t.lemma'.all (fun s => decide (Plain s)) = true ∧ t.deprel.all (fun s => decide (Plain s)) = true ∧
      t.pos.all (fun p => p.upos.all (fun s => decide (Plain s)) && p.xpos.all (fun s => decide (Plain s)) &&
        p.feats.entries.all (fun e => decide (Plain e.1 ∧ Plain e.2))) = true := by decide +kernel
  intro t ht
  obtain ⟨a1, a2, a3, a4, a5⟩ := h1 t ht
  refine ⟨a1, a2, ?_, ?_, ?_, ?_, ?_⟩
  · intro s hs; rw [hs] at a3; simpa using a3
  · intro s hs; rw [hs] at a4; simpa using a4
  · intro p s hp hs; rw [hp] at a5; simp only [Option.all_some, Bool.and_eq_true, hs] at a5; simpa using a5.1.1
  · intro p s hp hs; rw [hp] at a5; simp only [Option.all_some, Bool.and_eq_true, hs] at a5; simpa using a5.1.2
  · intro p hp; rw [hp] at a5
    simp only [Option.all_some, Bool.and_eq_true, List.all_eq_true, decide_eq_true_eq] at a5; exact a5.2

theorem scorable {d : Document} (h1 : BuiltValid d) (h2 : Loadable d)
    (h3 : ∀ t ∈ d.tokens, -1 ≤ t.headSent.getD 0) (h4 : ∀ s ∈ d.sentences, s.stop - s.start ≤ 3) :
    Scorable defaultCols 3 [d] := by
  refine ⟨by simpa using h1, by simpa using h2, ?_, by simpa using h4, fun _ _ _ _ => .inr (by decide)⟩
  intro d' hd' t ht v hv
  rw [List.mem_singleton.mp hd'] at ht
  simpa [hv] using h3 t ht

theorem gscorable : Scorable defaultCols 3 [wdoc] :=
  scorable ⟨_, _, _, wbuilt⟩ wdocLoadable (by decide +kernel) (by decide +kernel)

theorem pscorable : Scorable defaultCols 3 [pdoc] := scorable pvalid pdocLoadable (by decide +kernel) (by decide +kernel)

theorem pskeleton : List.Forall₂ SameSkeleton [wdoc] [pdoc] :=
  .cons ⟨rfl, rfl, .cons (by decide) (.cons (by decide) (.cons (by decide) (.cons (by decide) .nil)))⟩ .nil

end Demo

/-- The hypotheses of C77 hold for documents with a multiword token and two sentences, one tag and one
lemma of which are wrong; the UPOS and lemma scores are 3/4. -/
example : Scorable defaultCols 3 [Demo.wdoc] ∧ Scorable defaultCols 3 [Demo.pdoc] ∧
    List.Forall₂ SameSkeleton [Demo.wdoc] [Demo.pdoc] ∧
    (testDataSet id defaultCols 3 [Demo.wdoc] (fun _ => .ok [Demo.pdoc])).map (fun t =>
      ["UPOS", "XPOS", "Feats", "AllTags", "Lemmas"].map (fun n => (t.get? n.toList).map Score.f1)) =
    .ok [some (3 / 4), some 1, some 1, some (3 / 4), some (3 / 4)] :=
  ⟨Demo.gscorable, Demo.pscorable, Demo.pskeleton, by decide +kernel⟩

/-! ### C79 -/

theorem samePlaces_all {α : Type} [DecidableEq α] {f : Token → α} {a b : List Token}
    (h : List.Forall₂ (fun t u => f t = f u) a b) : samePlaces f a b = a.length := by
  unfold samePlaces
  induction h with
  | nil => rfl
  | cons h1 _ ih => rw [List.zip_cons_cons, List.filter_cons, if_pos (by simpa using h1), List.length_cons, ih]; rfl

theorem samePlaces_le {α : Type} [DecidableEq α] (f : Token → α) (a b : List Token) : samePlaces f a b ≤ a.length := by
  unfold samePlaces
  refine (List.length_filter_le _ _).trans ?_
  rw [List.length_zip]
  exact Nat.min_le_left _ _

theorem samePlaces_full {α : Type} [DecidableEq α] {f : Token → α} {a b : List Token} (hl : a.length = b.length)
    (h : samePlaces f a b = a.length) : List.Forall₂ (fun t u => f t = f u) a b := by
  unfold samePlaces at h
  induction a generalizing b with
  | nil =>
    rw [List.length_nil] at hl
    rw [List.length_eq_zero_iff.mp hl.symm]; exact .nil
  | cons x a ih =>
    cases b with
    | nil => simp at hl
    | cons y b =>
      rw [List.zip_cons_cons, List.filter_cons] at h
      by_cases hf : f x = f y
      · rw [if_pos (by simpa using hf), List.length_cons, List.length_cons] at h
        exact .cons hf (ih (by simpa using hl) (by omega))
      · rw [if_neg (by simpa using hf), List.length_cons] at h
        have := samePlaces_le f a b
        unfold samePlaces at this
        omega

/-- C79: in the situation of C77, with at least one token, a metric is 1 exactly if the tagger's values
are written like the gold values for every token. -/
theorem C79_perfect_iff {lower : Str → Str} {columns : Cols} {depth : Nat} {gold pred : List Document}
    {tag : List Document → Res (List Document)} (h2 : 2 ≤ depth) (hg : Scorable columns depth gold)
    (hp : Scorable columns depth pred) (hs : List.Forall₂ SameSkeleton gold pred)
    (ht : ∀ blind, prepareTestData gold = .ok blind → tag blind = .ok pred) (hne : allTokens gold ≠ []) :
    ∃ table, testDataSet lower columns depth gold tag = .ok table ∧
      ∀ name f, (name, f) ∈ metricValues columns → ∃ s, table.get? name = some s ∧ 0 ≤ s.f1 ∧ s.f1 ≤ 1 ∧
        (s.f1 = 1 ↔ Perfect true s) ∧
        (s.f1 = 1 ↔ List.Forall₂ (fun t u => f t = f u) (allTokens gold) (allTokens pred)) := by
  obtain ⟨table, h3, h4⟩ := C77_tag_scores (lower := lower) h2 hg hp hs ht
  refine ⟨table, h3, ?_⟩
  intro name f hf
  obtain ⟨s, h5, h6⟩ := h4 name f hf
  have hpos : 0 < (allTokens gold).length := List.length_pos_iff.mpr hne
  have hq : (0 : Rat) < (allTokens gold).length := by exact_mod_cast hpos
  have hle : ((samePlaces f (allTokens gold) (allTokens pred) : Nat) : Rat) ≤ (allTokens gold).length := by
    exact_mod_cast samePlaces_le _ _ _
  have hlen : (allTokens gold).length = (allTokens pred).length := by
    unfold allTokens
    clear h4 h6 h3 ht hg hp hne hpos hq hle
    induction hs with
    | nil => rfl
    | cons a _ ih => rw [List.flatMap_cons, List.flatMap_cons, List.length_append, List.length_append, ih, a.2.2.length_eq]
  have hf1 : s.f1 = (samePlaces f (allTokens gold) (allTokens pred) : Nat) / ((allTokens gold).length : Rat) := by
    rw [h6.f1, ratio, if_neg (by linarith)]
    field_simp
    ring
  have hone : s.f1 = 1 ↔ samePlaces f (allTokens gold) (allTokens pred) = (allTokens gold).length := by
    rw [hf1, div_eq_one_iff_eq (ne_of_gt hq)]
    exact_mod_cast Iff.rfl
  refine ⟨s, h5, ?_, ?_, ?_, ?_⟩
  · rw [hf1]; positivity
  · rw [hf1, div_le_one hq]; exact hle
  · constructor
    · intro h
      have h7 := hone.1 h
      have h8 : ratio ((allTokens gold).length : Rat) (allTokens gold).length = 1 := by
        rw [ratio, if_neg (ne_of_gt hq), div_self (ne_of_gt hq)]
      exact ⟨by rw [h6.precision, h7, h8], by rw [h6.recall, h7, h8], h, by rw [h6.aligned, h7]; simp [h8]⟩
    · exact fun h => h.2.2.1
  · rw [hone]
    exact ⟨samePlaces_full hlen, samePlaces_all⟩

/-- Written values can agree although the annotations differ: a missing part of speech and a part of
speech without any value are the same to the evaluation. -/
example : ((metricValues defaultCols).all fun e => e.2 { start := 0, stop := 1 } =
    e.2 { start := 0, stop := 1, pos := some ⟨none, none, Dict.empty⟩, lemma' := some "_".toList }) = true := by
  decide +kernel

end Verif
