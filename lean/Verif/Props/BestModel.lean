import Verif.Spec.BestModel
import Verif.Props.EvalRun
import Verif.Props.EvalRel
import Verif.Props.Vocabulary

/-! # C137: what a whole run finds -/

namespace Verif

/-- The columns of the file against the answers, for a tagger that has been tested. -/
theorem tested_scores {lower : Str → Str} {depth : Nat} {text : Str} {tag : TagFn} {table : ScoreTable}
    (hf : PlainFile text) (hd : 2 ≤ depth) (ho : AnswersTags text tag) (h : testFile lower depth text tag = .ok table) :
    ∃ docs ud blind pred, readFromStr 1 defaultCols text = .ok (docs, none) ∧ loadConllu depth text = .ok ud ∧
      prepareTestData docs = .ok blind ∧ tag blind = .ok pred ∧ ud.words.length = (allTokens docs).length ∧
      ∀ name cols f, (name, cols, f) ∈ fileMetrics → ∃ s, table.get? name = some s ∧
        IsScore s (allTokens docs).length (allTokens docs).length
          (sameCount (columnValues cols ud) ((allTokens pred).map f)) (some (allTokens docs).length) := by
  have h' := h
  unfold testFile dataSetDocs at h'
  cases hr : readFromStr 1 defaultCols text with
  | error e => simp [hr] at h'
  | ok r =>
    obtain ⟨docs, e⟩ := r
    cases e with
    | some e => simp [hr] at h'
    | none =>
      simp only [hr, testTagger] at h'
      cases hp : prepareTestData docs with
      | error e => simp [hp] at h'
      | ok blind =>
        simp only [hp] at h'
        cases ht : tag blind with
        | error e => simp [ht] at h'
        | ok pred =>
          have hu : ∃ ud, loadConllu depth text = .ok ud := by
            cases hl : loadConllu depth text with
            | ok ud => exact ⟨ud, rfl⟩
            | error e =>
              exfalso
              simp only [ht, hl] at h'
              revert h'
              repeat' split
              all_goals simp
          obtain ⟨ud, hu⟩ := hu
          obtain ⟨h1, h2⟩ := ho docs blind pred hr hp ht
          obtain ⟨table', g1, g2, _, g4⟩ := blind_scores (lower := lower) (tag := tag) hf.returns hf.comments hr hu hd hp ht h1 h2
          rw [h] at g1
          injection g1 with g1
          subst g1
          exact ⟨docs, ud, blind, pred, rfl, hu, hp, ht, g2, g4⟩

/-- With as many gold words as words of the tagger, every attribute is the share of right words. -/
theorem attr_share {metric : Str} {s : Score} {x : Rat} {n c : Nat} (h : AttrIs metric s x) (hs : IsScore s n n c (some n)) :
    x = ratio c n := by
  cases h with
  | precision => exact hs.precision
  | recall => exact hs.recall
  | f1 =>
    rw [hs.f1]
    unfold ratio
    by_cases hn : (n : Rat) = 0
    · simp [hn]
    · rw [if_neg hn, if_neg (by rw [← two_mul]; exact mul_ne_zero two_ne_zero hn), ← two_mul,
        mul_div_mul_left _ _ two_ne_zero]
  | aligned _ v hv =>
    rw [hs.aligned] at hv
    injection hv with hv
    exact hv.symm

/-- The comparison score of a table is the number of right values, divided by the number of words. -/
theorem total_share {metric : Str} {table : ScoreTable} {ud : UD} {pred : List Document} {n : Nat} :
    ∀ {ms : List FileMetric} {v : Rat}, (∀ m ∈ ms, m ∈ fileMetrics) →
    (∀ name cols f, (name, cols, f) ∈ fileMetrics → ∃ s, table.get? name = some s ∧
        IsScore s n n (sameCount (columnValues cols ud) ((allTokens pred).map f)) (some n)) →
    TotalIs (ms.map Prod.fst) metric table v →
    v = ratio ((ms.map (fun m => sameCount (columnValues m.2.1 ud) ((allTokens pred).map m.2.2))).sum : Nat) n := by
  intro ms
  induction ms with
  | nil =>
    rintro v _ _ ⟨vs, h, rfl⟩
    cases h
    simp [ratio]
  | cons m ms ih =>
    rintro v hm hs ⟨vs, h, rfl⟩
    cases h with
    | cons hx hrest =>
      rename_i x xs
      obtain ⟨s, s1, s2⟩ := hx
      obtain ⟨s', t1, t2⟩ := hs m.1 m.2.1 m.2.2 (hm m List.mem_cons_self)
      rw [s1] at t1
      injection t1 with t1
      subst t1
      have e1 := attr_share s2 t2
      have e2 := ih (v := xs.sum) (fun m hm' => hm m (List.mem_cons_of_mem _ hm')) hs ⟨xs, hrest, rfl⟩
      rw [List.sum_cons, e1, e2, List.map_cons, List.sum_cons]
      unfold ratio
      split
      · simp
      · rw [Nat.cast_add, add_div]

theorem ratio_count {n c d : Nat} (hc : n = 0 → c = 0) (h : ratio c n ≤ ratio d n) : c ≤ d := by
  by_cases hn : n = 0
  · rw [hc hn]; exact Nat.zero_le _
  · have hq : (0 : Rat) < n := by exact_mod_cast Nat.pos_of_ne_zero hn
    unfold ratio at h
    rw [if_neg (ne_of_gt hq), if_neg (ne_of_gt hq), div_le_div_iff_of_pos_right hq] at h
    exact_mod_cast h

theorem ratio_count_lt {n c d : Nat} (h : ratio c n < ratio d n) : c < d := by
  by_cases hn : n = 0
  · simp [ratio, hn] at h
  · have hq : (0 : Rat) < n := by exact_mod_cast Nat.pos_of_ne_zero hn
    unfold ratio at h
    rw [if_neg (ne_of_gt hq), if_neg (ne_of_gt hq), div_lt_div_iff_of_pos_right hq] at h
    exact_mod_cast h

/-- Two taggers tested on the same file: the one with the greater comparison score is right more often. -/
theorem more_right {lower : Str → Str} {depth : Nat} {text : Str} {metric : Str} {ms : List FileMetric}
    (hf : PlainFile text) (hd : 2 ≤ depth) (hm : ∀ m ∈ ms, m ∈ fileMetrics) {tag tag' : TagFn} {t t' : ScoreTable}
    {v v' : Rat} (ho : AnswersTags text tag) (ho' : AnswersTags text tag') (h : testFile lower depth text tag = .ok t)
    (h' : testFile lower depth text tag' = .ok t') (hv : TotalIs (ms.map Prod.fst) metric t v)
    (hv' : TotalIs (ms.map Prod.fst) metric t' v') :
    ∃ c c', RightWords depth text tag ms c ∧ RightWords depth text tag' ms c' ∧ (v ≤ v' → c ≤ c') ∧ (v < v' → c < c') := by
  obtain ⟨docs, ud, blind, pred, a1, a2, a3, a4, a5, a6⟩ := tested_scores hf hd ho h
  obtain ⟨docs', ud', blind', pred', b1, b2, b3, b4, b5, b6⟩ := tested_scores hf hd ho' h'
  rw [a1] at b1
  obtain rfl : docs = docs' := by injection b1 with b1; injection b1
  rw [a2] at b2
  obtain rfl : ud = ud' := by injection b2
  refine ⟨_, _, ⟨docs, ud, blind, pred, a1, a2, a3, a4, rfl⟩, ⟨docs, ud, blind', pred', a1, a2, b3, b4, rfl⟩, ?_⟩
  rw [total_share hm a6 hv, total_share hm b6 hv']
  refine ⟨ratio_count ?_, ratio_count_lt⟩
  intro hn
  rw [hn] at a5
  have : ∀ m ∈ ms, sameCount (columnValues m.2.1 ud) ((allTokens pred).map m.2.2) = 0 := by
    intro m _
    have := sameCount_le (columnValues m.2.1 ud) ((allTokens pred).map m.2.2)
    rw [columnValues, List.length_map, a5] at this
    exact Nat.le_zero.1 this
  rw [List.map_congr_left this]
  simp

theorem rightWords_unique {depth : Nat} {text : Str} {tag : TagFn} {ms : List FileMetric} {c d : Nat}
    (h : RightWords depth text tag ms c) (h' : RightWords depth text tag ms d) : c = d := by
  obtain ⟨docs, ud, blind, pred, a1, a2, a3, a4, rfl⟩ := h
  obtain ⟨docs', ud', blind', pred', b1, b2, b3, b4, rfl⟩ := h'
  rw [a1] at b1
  obtain rfl : docs = docs' := by injection b1 with b1; injection b1
  rw [a2] at b2
  obtain rfl : ud = ud' := by injection b2
  rw [a3] at b3
  obtain rfl : blind = blind' := by injection b3
  rw [a4] at b4
  obtain rfl : pred = pred' := by injection b4
  rfl

/-- C137: a run with one seed, whose models are compared on a dev file by some of UPOS, XPOS, Feats, AllTags and Lemmas.
No model that was trained in the run, with whichever parameters and in whichever epoch, is right about more words of the
dev file than the reported one, and earlier ones are right about fewer.  The reported test scores are the shares of words
of the test file the reported model is right about. -/
theorem C137_best {π : Type} (a : RunArgs π TagFn) (disk : List (List Str)) {train : Str → π → List (Round TagFn)} {seed : Str}
    (ht : a.trainer = some train) (hseed : a.seeds = .one seed) (hne : a.printFields ≠ []) {fin : Final π}
    (h : (a.main disk).value = .ok fin) {lower : Str → Str} {depth : Nat} (hd : 2 ≤ depth) {ms : List FileMetric}
    (hms : ∀ m ∈ ms, m ∈ fileMetrics) (hcmp : a.cmpFields = ms.map Prod.fst) {devText : Str} (hdev : PlainFile devText)
    (hround : ∀ p ∈ hyperList a.hyperparams, ∀ r ∈ train seed p, ∀ table tag, r.outcome = .ok (some table, tag) →
      testFile lower depth devText tag = .ok table ∧ AnswersTags devText tag) :
    ∃ (b e : Nat) (p : π) (r : Round TagFn) (tag : TagFn) (dev : ScoreTable),
      (hyperList a.hyperparams)[b]? = some p ∧ fin.params = some p ∧ (train seed p)[e]? = some r ∧
      r.outcome = .ok (some dev, tag) ∧ fin.dev = some dev ∧
      (∀ (i j : Nat) (p' : π) (r' : Round TagFn), (hyperList a.hyperparams)[i]? = some p' → (train seed p')[j]? = some r' →
        (i, j) ≠ (b, e) → ∃ dev' tag' c c', r'.outcome = .ok (some dev', tag') ∧ RightWords depth devText tag ms c ∧
          RightWords depth devText tag' ms c' ∧ c' ≤ c ∧ (i < b ∨ i = b ∧ j < e → c' < c)) ∧
      ∀ testText, PlainFile testText → AnswersTags testText tag →
        (∀ test, a.test = some test → (test (some tag)).2 = testFile lower depth testText tag) → a.test ≠ none →
        ∃ t, fin.test = some t ∧ ∀ m ∈ fileMetrics, ∃ s n c, t.get? m.1 = some s ∧ RightWords depth testText tag [m] c ∧
          IsScore s n n c (some n) := by
  obtain ⟨b, p, sel, dev, h1, h2, h3, h4, h5, h6, _, h8, h9⟩ := C103_report a disk ht hne h
  clear h9
  have hlist : a.seeds.list = [seed] := by rw [hseed]; rfl
  have htog : ∀ {l t}, Together a l t → l = [t] := by
    intro l t hx
    rw [Together, hseed] at hx
    exact hx
  rw [SelectedFor, hlist] at h4
  cases h4 with
  | cons hbest hnil =>
    cases hnil
    rename_i x
    obtain ⟨e, tag, tb⟩ := x
    have hx := htog h5
    obtain rfl : tb = dev := by simpa using hx
    obtain ⟨⟨r, r1, r2⟩, hbest⟩ := hbest
    obtain ⟨htest, honly⟩ := hround p (List.mem_of_getElem? h1) r (List.mem_of_getElem? r1) _ _ r2
    refine ⟨b, e, p, r, tag, tb, h1, h2, r1, r2, h3, ?_, ?_⟩
    · intro i j p' r' hi hj hij
      by_cases hib : i = b
      · subst hib
        rw [h1] at hi
        injection hi with hi
        subst hi
        have hje : j ≠ e := fun h => hij (by rw [h])
        obtain ⟨dev', tag', v, w, k1, k2, k3, k4, k5⟩ := hbest j r' hj hje
        obtain ⟨l1, l2⟩ := hround p (List.mem_of_getElem? h1) r' (List.mem_of_getElem? hj) _ _ k1
        simp only [hcmp] at k2 k3
        obtain ⟨c', c, m1, m2, m3, m4⟩ := more_right hdev hd hms l2 honly l1 htest k2 k3
        refine ⟨dev', tag', c, c', k1, m2, m1, m3 ?_, fun hlt => m4 (k4 ?_)⟩
        · rcases Nat.lt_or_gt_of_ne hje with hl | hl
          · exact (k4 hl).le
          · exact k5 hl
        · rcases hlt with hlt | hlt
          · exact absurd hlt (Nat.lt_irrefl _)
          · exact hlt.2
      · obtain ⟨other, v, w, ⟨sel', s1, s2⟩, s3, s4, s5, s6⟩ := h6 i p' hi hib
        rw [SelectedFor, hlist] at s1
        cases s1 with
        | cons hb' hnil =>
          cases hnil
          rename_i x
          obtain ⟨e', tag0, tb0⟩ := x
          have hx := htog s2
          obtain rfl : tb0 = other := by simpa using hx
          obtain ⟨⟨r0, r01, r02⟩, hb'⟩ := hb'
          obtain ⟨l1, l2⟩ := hround p' (List.mem_of_getElem? hi) r0 (List.mem_of_getElem? r01) _ _ r02
          simp only [hcmp] at s3 s4
          obtain ⟨c0, c, m1, m2, m3, m4⟩ := more_right hdev hd hms l2 honly l1 htest s3 s4
          have hle : c0 ≤ c := m3 (by
            rcases Nat.lt_or_gt_of_ne hib with hl | hl
            · exact (s5 hl).le
            · exact s6 hl)
          have hlt : i < b → c0 < c := fun hl => m4 (s5 hl)
          by_cases hje : j = e'
          · subst hje
            rw [r01] at hj
            injection hj with hj
            subst hj
            exact ⟨_, tag0, c, c0, r02, m2, m1, hle, fun hl => hlt (by rcases hl with hl | hl; exacts [hl, absurd hl.1 hib])⟩
          · obtain ⟨dev', tag', v', w', k1, k2, k3, k4, k5⟩ := hb' j r' hj hje
            obtain ⟨q1, q2⟩ := hround p' (List.mem_of_getElem? hi) r' (List.mem_of_getElem? hj) _ _ k1
            simp only [hcmp] at k2 k3
            obtain ⟨c', c1, n1, n2, n3, n4⟩ := more_right hdev hd hms q2 l2 q1 l1 k2 k3
            have hc1 := rightWords_unique n2 m1
            subst hc1
            have hle' : c' ≤ c1 := n3 (by
              rcases Nat.lt_or_gt_of_ne hje with hl | hl
              · exact (k4 hl).le
              · exact k5 hl)
            exact ⟨dev', tag', c, c', k1, m2, n1, hle'.trans hle, fun hl =>
              hle'.trans_lt (hlt (by rcases hl with hl | hl; exacts [hl, absurd hl.1 hib]))⟩
    · intro testText hft hot htst hnone
      cases hat : a.test with
      | none => exact absurd hat hnone
      | some test =>
        obtain ⟨ts, t, g1, g2, g3⟩ := h8 test hat
        cases g1 with
        | cons gx gnil =>
          cases gnil
          have := htog g2
          injection this with this
          subst this
          rw [htst test hat] at gx
          refine ⟨_, g3, fun m hm => ?_⟩
          obtain ⟨docs, ud, blind, pred, a1, a2, a3, a4, a5, a6⟩ := tested_scores hft hd hot gx
          obtain ⟨s, s1, s2⟩ := a6 m.1 m.2.1 m.2.2 hm
          exact ⟨s, _, _, s1, ⟨docs, ud, blind, pred, a1, a2, a3, a4, by simp⟩, s2⟩

/-- C137: trained taggers are such taggers, whatever their networks answer, if the training data was read from CoNLL-U
and the network does answer about the words of a document. -/
theorem C137_trained {F : Type} (lower : Str → Str) (float : Str → Res F) (zero : F) (other : TextToken)
    (seen : Seen) (ps : List Provider) (dataset : List Document) (hin : ∀ s ∈ leafSpecs ps, ∀ g ∈ seen s, g ∈ dataset)
    (net : Features → Res Features) {depth : Nat} {text : Str} {ud : UD}
    (hf : PlainFile text) (h2 : loadConllu depth text = .ok ud)
    (hdata : ∀ g ∈ dataset, ∀ t ∈ g.tokens, TokenPlain g.text t) (hlower : ∀ s, Plain s → Plain (lower s))
    (hclear : ∀ p ∈ ps, p.clear dataset) (hcut : ∀ p ∈ ps, p.cuts)
    (hans : ∀ docs blind, readFromStr 1 defaultCols text = .ok (docs, none) → prepareTestData docs = .ok blind →
      ∀ d ∈ blind, ∀ e, trainedTag lower float zero other seen ps net d = .ok e → e.tokens ≠ []) :
    AnswersTags text (mapM' (trainedTag lower float zero other seen ps net)) := by
  intro docs blind pred h1 hblind ht
  obtain ⟨v1, v2, _⟩ := read_again hf.returns hf.comments h1 h2
  obtain ⟨out, hout, hb⟩ := C53_blind (fun d hd => (v1 d hd).built)
  rw [hblind] at hout
  injection hout with hout
  subst hout
  have hbp := plain_blind hb (fun d hd => (v2 d hd).plain)
  have hbb : ∀ o ∈ blind, Built o := fun o ho => by
    obtain ⟨d, hd, h⟩ := forall₂_mem_right hb ho
    exact h.1
  have hm := (mapM'_ok_iff).1 ht
  constructor
  · rw [forall₂_getElem?] at hm ⊢
    refine ⟨hm.1, fun k b e hb he => ?_⟩
    have hmem := hbb b (List.mem_of_getElem? hb)
    obtain ⟨a, b, _⟩ := trained_said hin hmem (hm.2 k b e hb he) (hans docs blind h1 hblind b (List.mem_of_getElem? hb) e (hm.2 k b e hb he))
    exact ⟨a, b⟩
  · intro e he
    obtain ⟨b, hb, hbe⟩ := forall₂_mem_right hm he
    exact C135_plain lower float zero other seen ps net dataset hin hdata hlower hclear hcut b e (hbb b hb) hbe (hbp b hb)

namespace Demo

/-- Taggers trained on the letters. -/
def letterTagger (net : Features → Res Features) : TagFn :=
  mapM' (trainedTag id float 0 (ptok 0) letterSeen letterProviders net)

/-- A round of a trainer that tests on the file of the letters. -/
def letterRound (tag : TagFn) : Round TagFn := ⟨true, true, (testFile id 10 letterFile tag).map fun t => (some t, tag)⟩

/-- Two sets of parameters with two epochs each; only one of the models is different. -/
def twoRounds (mixed heart : Round TagFn) : RunArgs Bool TagFn where
  modelDir := ["m".toList]
  deleteAfter := true
  seeds := .one "1".toList
  printFields := ["UPOS".toList]
  cmpFields := ["UPOS".toList, "Lemmas".toList]
  cmpMetric := "f1".toList
  devResults := none
  trainer := some fun _ p => [mixed, if p then heart else mixed]
  testResults := none
  test := some fun tag => match tag with
    | some tag => (true, testFile id 10 letterFile tag)
    | none => (false, .error .attribute)
  hyperparams := .inr [false, true]

/-- One of the models has learned the data by heart. -/
def letterRun : RunArgs Bool TagFn := twoRounds (letterRound (letterTagger mixedNet)) (letterRound (letterTagger letterNet))

theorem letter_plainFile : PlainFile letterFile := ⟨by decide +kernel, by decide +kernel⟩

theorem letter_answers (net : Features → Res Features)
    (h : ((prepareTestData letterDocs).bind fun b => .ok (b.map fun d =>
      (trainedTag id float 0 (ptok 0) letterSeen letterProviders net d).toOption.map fun e => decide (e.tokens = []))) =
      .ok [some false, some false]) : AnswersTags letterFile (letterTagger net) := by
  obtain ⟨ud, hu⟩ := letterLoad
  obtain ⟨v1, v2, _⟩ := read_again letter_plainFile.returns letter_plainFile.comments letterRead hu
  refine C137_trained _ _ _ _ _ _ _ (letter_orders _).sub _ letter_plainFile hu (fun g hg => (v2 g hg).plain) (fun s h => h) ?_ ?_ ?_
  · intro p hp
    simp only [letterProviders, List.mem_cons, List.not_mem_nil, or_false] at hp
    rcases hp with rfl | rfl | rfl
    · trivial
    · trivial
    · intro h
      cases h
  · intro p hp
    simp only [letterProviders, List.mem_cons, List.not_mem_nil, or_false] at hp
    rcases hp with rfl | rfl | rfl <;> trivial
  · intro docs blind h1 hb d hd e he h0
    rw [letterRead] at h1
    obtain rfl : letterDocs = docs := by injection h1 with h1; injection h1
    rw [hb] at h
    injection h with h
    have hm := List.mem_map_of_mem (f := fun d =>
      (trainedTag id float 0 (ptok 0) letterSeen letterProviders net d).toOption.map fun e => decide (e.tokens = [])) hd
    rw [h, he] at hm
    simp [Except.toOption, h0] at hm

theorem letter_mixed : AnswersTags letterFile (letterTagger mixedNet) := letter_answers _ (by decide +kernel)

theorem letter_heart : AnswersTags letterFile (letterTagger letterNet) := letter_answers _ (by decide +kernel)

theorem letterRound_ok {tag tag' : TagFn} {table : ScoreTable} (h : (letterRound tag).outcome = .ok (some table, tag')) :
    tag' = tag ∧ testFile id 10 letterFile tag = .ok table := by
  unfold letterRound at h
  cases ht : testFile id 10 letterFile tag with
  | error e => simp [ht, Except.map] at h
  | ok t =>
    simp only [ht, Except.map, Except.ok.injEq, Prod.mk.injEq, Option.some.injEq] at h
    exact ⟨h.2.symm, by rw [h.1]⟩

end Demo

namespace Demo

/-- The scores of a tagger for the file of the letters. -/
def letterScores (upos xpos feats tags lemmas : Rat) : ScoreTable :=
  Dict.ofList ([("Tokens", 1), ("Sentences", 1), ("Words", 1)].map (fun (n, x) => (n.toList, ⟨x, x, x, none⟩)) ++
    [("UPOS", upos), ("XPOS", xpos), ("Feats", feats), ("AllTags", tags), ("Lemmas", lemmas), ("UAS", 1 / 3), ("LAS", 0),
      ("CLAS", 0)].map (fun (n, x) => (n.toList, ⟨x, x, x, some x⟩)))

def mixedScores : ScoreTable := letterScores (2 / 3) (1 / 3) (1 / 3) 0 (2 / 3)

theorem mixed_round : letterRound (letterTagger mixedNet) =
    ⟨true, true, .ok (some mixedScores, letterTagger mixedNet)⟩ := by
  have h : testFile id 10 letterFile (letterTagger mixedNet) = .ok mixedScores := by
    decide +kernel
  rw [letterRound, h]
  rfl

theorem heart_test : testFile id 10 letterFile (letterTagger letterNet) = .ok (letterScores 1 1 1 1 1) := by
  decide +kernel

theorem heart_round : letterRound (letterTagger letterNet) =
    ⟨true, true, .ok (some (letterScores 1 1 1 1 1), letterTagger letterNet)⟩ := by
  rw [letterRound, heart_test]
  rfl

/-- The run ends, and finds the parameters with the better model. -/
theorem letterRun_params : (letterRun.main []).value.toOption.map Final.params = some (some true) := by
  rw [letterRun, mixed_round, heart_round]
  decide +kernel

end Demo

theorem Demo.letter_rounds {p : Bool} {r : Round TagFn} {table : ScoreTable} {tag : TagFn}
    (hr : r ∈ [Demo.letterRound (Demo.letterTagger Demo.mixedNet),
      if p then Demo.letterRound (Demo.letterTagger Demo.letterNet) else Demo.letterRound (Demo.letterTagger Demo.mixedNet)])
    (ho : r.outcome = .ok (some table, tag)) :
    testFile id 10 Demo.letterFile tag = .ok table ∧ AnswersTags Demo.letterFile tag := by
  have hr' : r = Demo.letterRound (Demo.letterTagger Demo.mixedNet) ∨
      r = Demo.letterRound (Demo.letterTagger Demo.letterNet) := by
    rcases List.mem_cons.1 hr with h | h
    · exact .inl h
    · cases p
      · exact .inl (List.mem_singleton.1 h)
      · exact .inr (List.mem_singleton.1 h)
  rcases hr' with h | h
  · rw [h] at ho
    obtain ⟨h', h''⟩ := Demo.letterRound_ok ho
    rw [h']
    exact ⟨h'', Demo.letter_mixed⟩
  · rw [h] at ho
    obtain ⟨h', h''⟩ := Demo.letterRound_ok ho
    rw [h']
    exact ⟨h'', Demo.letter_heart⟩

/-- A whole run: the better model is found and tested. -/
example : ∃ fin, (Demo.letterRun.main []).value = .ok fin ∧ fin.params = some true ∧
    ∃ t s n c, fin.test = some t ∧ t.get? "UPOS".toList = some s ∧ IsScore s n n c (some n) := by
  have hok := Demo.letterRun_params
  generalize hv : (Demo.letterRun.main []).value = v at hok
  cases v with
  | error e => cases hok
  | ok fin =>
    have hp : fin.params = some true := by simpa [Except.toOption] using hok
    have a1 : Demo.letterRun.trainer = some fun _ p => [Demo.letterRound (Demo.letterTagger Demo.mixedNet),
      if p then Demo.letterRound (Demo.letterTagger Demo.letterNet)
      else Demo.letterRound (Demo.letterTagger Demo.mixedNet)] := rfl
    have a2 : Demo.letterRun.seeds = .one "1".toList := rfl
    have a3 : Demo.letterRun.printFields ≠ [] := by simp [Demo.letterRun, Demo.twoRounds]
    have a4 : Demo.letterRun.cmpFields = [fileMetrics[0], fileMetrics[4]].map Prod.fst := rfl
    have a5 : ∀ m ∈ [fileMetrics[0], fileMetrics[4]], m ∈ fileMetrics := by simp [fileMetrics]
    obtain ⟨b, e, p, r, tag, dev, h1, h2, h3, h4, h5, _, h7⟩ := C137_best Demo.letterRun [] a1 a2 a3 hv
      (lower := id) (depth := 10) (by decide) a5 a4
      Demo.letter_plainFile (fun p _ r hr table tag ho => Demo.letter_rounds hr ho)
    have a6 : ∀ test, Demo.letterRun.test = some test → (test (some tag)).2 = testFile id 10 Demo.letterFile tag := by
      intro test ht
      unfold Demo.letterRun Demo.twoRounds at ht
      rw [← Option.some.inj ht]
    have a7 : Demo.letterRun.test ≠ none := by simp [Demo.letterRun, Demo.twoRounds]
    obtain ⟨t, t1, t2⟩ := h7 _ Demo.letter_plainFile (Demo.letter_rounds (List.mem_of_getElem? h3) h4).2 a6 a7
    obtain ⟨s, n, c, s1, _, s3⟩ := t2 (fileMetrics[0]) List.mem_cons_self
    exact ⟨fin, rfl, hp, t, s, n, c, t1, s1, s3⟩

end Verif
