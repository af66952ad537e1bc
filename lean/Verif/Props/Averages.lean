import Verif.Spec.Averages
import Verif.Props.BestModel
import Verif.Props.RunSucceeds

/-! # C145: what a run with several seeds finds -/

namespace Verif

/-- Nothing can be averaged over no seeds. -/
theorem average_none {metrics : List Str} (hn : metrics.Nodup) (hne : metrics ≠ []) {t : ScoreTable} : averageScores metrics [] ≠ .ok t := by
  obtain ⟨m, ms, rfl⟩ := List.exists_cons_of_ne_nil hne
  intro h
  unfold averageScores at h
  simp only [forM'] at h
  cases hm : mapM' (meanEntry ([] : List (Option ScoreTable)).length
      (Dict.ofList ((m :: ms).map (fun m => (m, ({} : Sums)))))) (m :: ms) with
  | error e => rw [hm] at h; cases h
  | ok l =>
    rw [mapM'_ok_iff] at hm
    cases hm with
    | cons hx _ =>
      unfold meanEntry at hx
      split at hx
      · cases hx
      · rename_i s hs
        have hs' : s = ({} : Sums) := by
          unfold Dict.getItem at hs
          rw [Dict.get?_ofList _ (by simpa [Function.comp_def] using hn)] at hs
          simp [assocGet] at hs
          exact hs.symm
        subst hs'
        cases hx

/-- How many words of the file the tagger is right about. -/
noncomputable def rightOf (depth : Nat) (text : Str) (tag : TagFn) (m : FileMetric) : Nat :=
  open Classical in if h : ∃ c, RightWords depth text tag [m] c then h.choose else 0

theorem rightOf_eq {depth : Nat} {text : Str} {tag : TagFn} {m : FileMetric} {c : Nat} (h : RightWords depth text tag [m] c) :
    rightOf depth text tag m = c := by
  have hx : ∃ c, RightWords depth text tag [m] c := ⟨c, h⟩
  unfold rightOf
  rw [dif_pos hx]
  exact rightWords_unique hx.choose_spec h

/-- A tested tagger: its scores by the words it is right about. -/
theorem tested_right {lower : Str → Str} {depth : Nat} {text : Str} {docs : List Document}
    (hdocs : readFromStr 1 defaultCols text = .ok (docs, none)) {tag : TagFn} {table : ScoreTable}
    (hf : PlainFile text) (hd : 2 ≤ depth) (ho : AnswersTags text tag) (h : testFile lower depth text tag = .ok table) :
    (∀ ms, RightWords depth text tag ms ((ms.map (rightOf depth text tag)).sum)) ∧
    (∀ m, rightOf depth text tag m ≤ (allTokens docs).length) ∧
    ∀ m ∈ fileMetrics, ∃ s, table.get? m.1 = some s ∧
      IsScore s (allTokens docs).length (allTokens docs).length (rightOf depth text tag m) (some (allTokens docs).length) := by
  obtain ⟨docs', ud, blind, pred, a1, a2, a3, a4, a5, a6⟩ := tested_scores hf hd ho h
  rw [hdocs] at a1
  obtain rfl : docs = docs' := by injection a1 with a1; injection a1
  have hr : ∀ m, rightOf depth text tag m = sameCount (columnValues m.2.1 ud) ((allTokens pred).map m.2.2) := fun m =>
    rightOf_eq ⟨docs, ud, blind, pred, hdocs, a2, a3, a4, by simp⟩
  refine ⟨fun ms => ⟨docs, ud, blind, pred, hdocs, a2, a3, a4, ?_⟩, fun m => ?_, fun m hm => ?_⟩
  · rw [List.map_congr_left (fun m _ => hr m)]
  · have := sameCount_le (columnValues m.2.1 ud) ((allTokens pred).map m.2.2)
    rw [columnValues, List.length_map, a5] at this
    rw [hr]
    exact this
  · rw [hr]
    exact a6 m.1 m.2.1 m.2.2 hm

theorem ratio_div (c n : Nat) : ratio c n = (c : Rat) / n := by
  unfold ratio
  split
  · rename_i h
    rw [h, div_zero]
  · rfl

/-- Every table is the result of a test of the tagger on the file. -/
abbrev TestedOn (lower : Str → Str) (depth : Nat) (text : Str) : List TagFn → List ScoreTable → Prop :=
  List.Forall₂ (fun tag t => testFile lower depth text tag = .ok t ∧ AnswersTags text tag)

/-- What is averaged over the seeds are the shares of right words. -/
theorem average_share {lower : Str → Str} {depth : Nat} {text : Str} {docs : List Document}
    (hdocs : readFromStr 1 defaultCols text = .ok (docs, none)) (hf : PlainFile text) (hd : 2 ≤ depth)
    {fields : List Str} (hne : fields ≠ []) (hn : fields.Nodup) (hp : ∀ f ∈ fields, f ∈ reported)
    {tags : List TagFn} {ts : List ScoreTable} (h : TestedOn lower depth text tags ts) {avg : ScoreTable}
    (havg : averageScores fields (ts.map some) = .ok avg) :
    tags ≠ [] ∧ avg.keys = fields ∧ ∀ m ∈ fileMetrics, m.1 ∈ fields → ∃ s, avg.get? m.1 = some s ∧
      ∃ q, q = mean (tags.map (fun tag => ratio (rightOf depth text tag m) (allTokens docs).length)) ∧
        s.precision = q ∧ s.recall = q ∧ s.f1 = q ∧ s.aligned = some q := by
  have hts : ts ≠ [] := by
    rintro rfl
    exact average_none hn hne havg
  have hfrom : ∀ t ∈ ts, FromTester t := by
    intro t ht
    obtain ⟨tag, _, h1, _⟩ := forall₂_mem_right h ht
    exact C143_testers.1 _ h1
  let a : RunArgs Unit Unit :=
    { modelDir := [], deleteAfter := false, seeds := .one [], printFields := fields, cmpFields := [],
      cmpMetric := "f1".toList, devResults := none, trainer := none, testResults := none, test := none, hyperparams := .inr [] }
  have hnamed : a.Named := ⟨hp, hn, .inl ⟨(by intro f hf; cases hf), by simp [a]⟩⟩
  have h2 := (average_tester hnamed hts hfrom).2
  have hacc : ∀ f ∈ fields, f ∈ withAccuracy := by
    intro f hf
    by_contra hno
    have := h2 ⟨f, hf, hno⟩
    change averageScores fields (ts.map some) = _ at this
    rw [havg] at this
    cases this
  obtain ⟨res, r1, r2, r3⟩ := C52_mean_partial hn (scores := ts.map some) (by simpa using hts) (by
    intro sc hsc
    obtain ⟨t, ht, rfl⟩ := List.mem_map.1 hsc
    refine ⟨t, rfl, fun m hm => ?_⟩
    obtain ⟨s, hs, hv, _⟩ := (hfrom t ht).get (hp m hm)
    obtain ⟨v, hv⟩ := hv (hacc m hm)
    exact ⟨s, hs, by rw [hv]; rfl⟩)
  rw [havg] at r1
  obtain rfl : avg = res := by injection r1
  refine ⟨by (rintro rfl; cases h; exact hts rfl), r2, fun m hm hmf => ?_⟩
  obtain ⟨values, aligned, r, v1, v2, v3, v4, v5, v6, v7⟩ := r3 m.1 hmf
  have hval : List.Forall₂ (fun tag (v : Score) => IsScore v (allTokens docs).length (allTokens docs).length
      (rightOf depth text tag m) (some (allTokens docs).length)) tags values := by
    rw [List.forall₂_map_left_iff] at v1
    clear r3 havg hfrom h2 hts v2 v4 v5 v6 v7
    induction h generalizing values with
    | nil => cases v1; exact .nil
    | cons hx _ ih =>
      cases v1 with
      | cons hv hrest =>
        refine .cons ?_ (ih _ hrest)
        obtain ⟨t, ht, hg⟩ := hv
        injection ht with ht
        subst ht
        obtain ⟨s, s1, s2⟩ := (tested_right hdocs hf hd hx.2 hx.1).2.2 m hm
        rw [hg] at s1
        injection s1 with s1
        rw [s1]
        exact s2
  have hmap : ∀ g : Score → Rat, (∀ tag v, IsScore v (allTokens docs).length (allTokens docs).length
      (rightOf depth text tag m) (some (allTokens docs).length) → g v = ratio (rightOf depth text tag m) (allTokens docs).length) →
      values.map g = tags.map (fun tag => ratio (rightOf depth text tag m) (allTokens docs).length) := by
    intro g hg
    clear v1 v2 v4 v5 v6 v7 h
    induction hval with
    | nil => rfl
    | cons hx _ ih => rw [List.map_cons, List.map_cons, ih, hg _ _ hx]
  refine ⟨r, v3, _, rfl, ?_, ?_, ?_, ?_⟩
  · rw [v4, hmap _ (fun _ _ h => attr_share (.precision _) h)]
  · rw [v5, hmap _ (fun _ _ h => attr_share (.recall _) h)]
  · rw [v6, hmap _ (fun _ _ h => attr_share (.f1 _) h)]
  · have : aligned = values.map (fun v => v.aligned.getD 0) := by
      clear v1 v3 v4 v5 v6 v7 hval hmap
      induction v2 with
      | nil => rfl
      | cons hx _ ih => rw [List.map_cons, ← ih, hx]; rfl
    rw [v7, this, hmap _ (fun tag v h => by rw [h.aligned]; rfl)]

/-- The number by which parameters are compared. -/
theorem average_total {lower : Str → Str} {depth : Nat} {text : Str} {docs : List Document}
    (hdocs : readFromStr 1 defaultCols text = .ok (docs, none)) (hf : PlainFile text) (hd : 2 ≤ depth)
    {fields : List Str} (hne : fields ≠ []) (hn : fields.Nodup) (hp : ∀ f ∈ fields, f ∈ reported)
    {tags : List TagFn} {ts : List ScoreTable} (h : TestedOn lower depth text tags ts) {avg : ScoreTable}
    (havg : averageScores fields (ts.map some) = .ok avg) {metric : Str} :
    ∀ {ms : List FileMetric} {v : Rat}, (∀ m ∈ ms, m ∈ fileMetrics) → TotalIs (ms.map Prod.fst) metric avg v →
    v = ((tags.map (fun tag => (ms.map (rightOf depth text tag)).sum)).sum : Nat) / (allTokens docs).length / tags.length := by
  have ⟨hk, hs⟩ := (average_share hdocs hf hd hne hn hp h havg).2
  intro ms
  induction ms with
  | nil =>
    rintro v _ ⟨vs, h, rfl⟩
    cases h
    simp
  | cons m ms ih =>
    rintro v hm ⟨vs, h, rfl⟩
    cases h with
    | cons hx hrest =>
      rename_i x xs
      obtain ⟨s, s1, s2⟩ := hx
      have hmem : m.1 ∈ fields := by
        rw [← hk]
        exact Dict.get?_isSome.1 (by rw [s1]; rfl)
      obtain ⟨s', t1, q, hq, t2, t3, t4, t5⟩ := hs m (hm m List.mem_cons_self) hmem
      rw [s1] at t1
      injection t1 with t1
      subst t1
      have e1 : x = q := by
        cases s2 with
        | precision => exact t2
        | recall => exact t3
        | f1 => exact t4
        | aligned _ v hv =>
          rw [t5] at hv
          injection hv with hv
          exact hv.symm
      have e2 := ih (v := xs.sum) (fun m hm' => hm m (List.mem_cons_of_mem _ hm')) ⟨xs, hrest, rfl⟩
      have e3 : (tags.map (fun tag => ratio (rightOf depth text tag m) (allTokens docs).length)).sum =
          ((tags.map (fun tag => rightOf depth text tag m)).sum : Nat) / ((allTokens docs).length : Rat) := by
        clear hs h havg hq e2 ih hn
        induction tags with
        | nil => simp
        | cons tag tags ih => rw [List.map_cons, List.sum_cons, ih, List.map_cons, List.sum_cons, ratio_div, Nat.cast_add, add_div]
      rw [List.sum_cons, e1, e2, hq, mean, e3, List.length_map, ← add_div, ← add_div, ← Nat.cast_add, ← List.sum_map_add]
      simp only [List.map_cons, List.sum_cons]

/-- Two sets of taggers, one for each seed: the set with the greater comparison score is right more often. -/
theorem more_right_together {lower : Str → Str} {depth : Nat} {text : Str} (hf : PlainFile text) (hd : 2 ≤ depth)
    {fields : List Str} (hne : fields ≠ []) (hn : fields.Nodup) (hp : ∀ f ∈ fields, f ∈ reported)
    {ms : List FileMetric} (hm : ∀ m ∈ ms, m ∈ fileMetrics) {metric : Str} {tags tags' : List TagFn} (hlen : tags.length = tags'.length)
    {ts ts' : List ScoreTable} (h : TestedOn lower depth text tags ts) (h' : TestedOn lower depth text tags' ts')
    {avg avg' : ScoreTable} (havg : averageScores fields (ts.map some) = .ok avg)
    (havg' : averageScores fields (ts'.map some) = .ok avg') {v v' : Rat} (hv : TotalIs (ms.map Prod.fst) metric avg v)
    (hv' : TotalIs (ms.map Prod.fst) metric avg' v') :
    ∃ c c', RightTogether depth text tags ms c ∧ RightTogether depth text tags' ms c' ∧ (v ≤ v' → c ≤ c') ∧ (v < v' → c < c') := by
  obtain ⟨docs, hdocs⟩ : ∃ docs, readFromStr 1 defaultCols text = .ok (docs, none) := by
    cases h with
    | nil => exact absurd havg (average_none hn hne)
    | cons hx _ =>
      obtain ⟨docs, _, _, _, a1, _⟩ := tested_scores hf hd hx.2 hx.1
      exact ⟨docs, a1⟩
  have hpos : (0 : Rat) < tags.length := by
    exact_mod_cast List.length_pos_of_ne_nil (average_share hdocs hf hd hne hn hp h havg).1
  have key : ∀ {tags : List TagFn} {ts : List ScoreTable}, TestedOn lower depth text tags ts →
      RightTogether depth text tags ms (tags.map (fun tag => (ms.map (rightOf depth text tag)).sum)).sum ∧
      ((allTokens docs).length = 0 → (tags.map (fun tag => (ms.map (rightOf depth text tag)).sum)).sum = 0) := by
    intro tags ts h
    constructor
    · refine ⟨_, ?_, rfl⟩
      rw [List.forall₂_map_right_iff, List.forall₂_same]
      intro tag htag
      obtain ⟨t, _, h1, h2⟩ := forall₂_mem_left h htag
      exact (tested_right hdocs hf hd h2 h1).1 ms
    · intro h0
      rw [List.sum_eq_zero_iff]
      intro x hx
      obtain ⟨tag, htag, rfl⟩ := List.mem_map.1 hx
      rw [List.sum_eq_zero_iff]
      intro y hy
      obtain ⟨m, _, rfl⟩ := List.mem_map.1 hy
      obtain ⟨t, _, h1, h2⟩ := forall₂_mem_left h htag
      have := (tested_right hdocs hf hd h2 h1).2.1 m
      omega
  refine ⟨_, _, (key h).1, (key h').1, ?_⟩
  rw [average_total hdocs hf hd hne hn hp h havg hm hv, average_total hdocs hf hd hne hn hp h' havg' hm hv', ← hlen,
    div_le_div_iff_of_pos_right hpos, div_lt_div_iff_of_pos_right hpos, ← ratio_div, ← ratio_div]
  exact ⟨ratio_count (key h).2, ratio_count_lt⟩

/-- C145: a run with several seeds, whose models are compared on a dev file by some of UPOS, XPOS, Feats, AllTags and
Lemmas.  For each seed the model taken is the one of an epoch with the most right words of the dev file.  The reported
parameters are those whose models are right most often, all seeds taken together.  The reported scores of the dev and of
the test file are the averages, over the seeds, of the shares of words the models are right about. -/
theorem C145_average {π : Type} (a : RunArgs π TagFn) (disk : List (List Str)) {train : Str → π → List (Round TagFn)}
    {seeds : List Str} (ht : a.trainer = some train) (hseeds : a.seeds = .many seeds) (hne : a.printFields ≠ [])
    (hn : a.printFields.Nodup) (hp : ∀ f ∈ a.printFields, f ∈ reported) {fin : Final π}
    (h : (a.main disk).value = .ok fin) {lower : Str → Str} {depth : Nat} (hd : 2 ≤ depth) {ms : List FileMetric}
    (hms : ∀ m ∈ ms, m ∈ fileMetrics) (hcmp : a.cmpFields = ms.map Prod.fst) {devText : Str} (hdev : PlainFile devText)
    (hround : ∀ s ∈ seeds, ∀ p ∈ hyperList a.hyperparams, ∀ r ∈ train s p, ∀ table tag, r.outcome = .ok (some table, tag) →
      testFile lower depth devText tag = .ok table ∧ AnswersTags devText tag) :
    ∃ (b : Nat) (p : π) (sel : Nat → List (Nat × TagFn)) (dev : ScoreTable),
      (hyperList a.hyperparams)[b]? = some p ∧ fin.params = some p ∧ fin.dev = some dev ∧
      -- the models of the seeds
      (∀ (i : Nat) (p' : π), (hyperList a.hyperparams)[i]? = some p' → List.Forall₂ (fun s x => ∃ r t, (train s p')[x.1]? = some r ∧
        r.outcome = .ok (some t, x.2) ∧ ∀ (j : Nat) (r' : Round TagFn), (train s p')[j]? = some r' → j ≠ x.1 →
          ∃ t' tag' c c', r'.outcome = .ok (some t', tag') ∧ RightWords depth devText x.2 ms c ∧
            RightWords depth devText tag' ms c' ∧ c' ≤ c ∧ (j < x.1 → c' < c)) seeds (sel i)) ∧
      -- the parameters
      (∀ (i : Nat) (p' : π), (hyperList a.hyperparams)[i]? = some p' → i ≠ b →
        ∃ c c', RightTogether depth devText ((sel b).map Prod.snd) ms c ∧
          RightTogether depth devText ((sel i).map Prod.snd) ms c' ∧ c' ≤ c ∧ (i < b → c' < c)) ∧
      -- the scores
      (∀ m ∈ fileMetrics, m.1 ∈ a.printFields → ∃ s, dev.get? m.1 = some s ∧
        AverageShare depth devText ((sel b).map Prod.snd) m s) ∧
      ∀ testText, PlainFile testText → (∀ x ∈ sel b, AnswersTags testText x.2) →
        (∀ test, a.test = some test → ∀ x ∈ sel b, (test (some x.2)).2 = testFile lower depth testText x.2) → a.test ≠ none →
        ∃ t, fin.test = some t ∧ ∀ m ∈ fileMetrics, m.1 ∈ a.printFields → ∃ s, t.get? m.1 = some s ∧
          AverageShare depth testText ((sel b).map Prod.snd) m s := by
  obtain ⟨b, p, sel, dev, h1, h2, h3, h4, h5, h6, _, h8, h9⟩ := C103_report a disk ht hne h
  clear h9
  have hlist : a.seeds.list = seeds := by rw [hseeds]; rfl
  have htog : ∀ {l t}, Together a l t → averageScores a.printFields (l.map some) = .ok t := by
    intro l t hx
    rw [Together, hseeds] at hx
    exact hx
  have hall : ∀ i : Nat, ∃ s : List (Nat × TagFn × ScoreTable), (i = b → s = sel) ∧
      ∀ p', (hyperList a.hyperparams)[i]? = some p' → SelectedFor a train p' s ∧
        (i ≠ b → ∃ other v w, Together a (s.map (fun x => x.2.2)) other ∧ TotalIs a.cmpFields a.cmpMetric other v ∧
          TotalIs a.cmpFields a.cmpMetric dev w ∧ (i < b → v < w) ∧ (b < i → v ≤ w)) := by
    intro i
    by_cases hib : i = b
    · refine ⟨sel, fun _ => rfl, fun p' hp' => ⟨?_, fun h => absurd hib h⟩⟩
      rw [hib, h1] at hp'
      injection hp' with hp'
      subst hp'
      exact h4
    · cases hi : (hyperList a.hyperparams)[i]? with
      | none => exact ⟨[], fun h => absurd h hib, by simp⟩
      | some p' =>
        obtain ⟨other, v, w, ⟨s, s1, s2⟩, s3, s4, s5, s6⟩ := h6 i p' hi hib
        refine ⟨s, fun h => absurd h hib, ?_⟩
        intro p'' hp''
        injection hp'' with hp''
        subst hp''
        exact ⟨s1, fun _ => ⟨other, v, w, s2, s3, s4, s5, s6⟩⟩
  choose F hF using hall
  have hb : F b = sel := (hF b).1 rfl
  have htested : ∀ {p' s}, p' ∈ hyperList a.hyperparams → SelectedFor a train p' s →
      TestedOn lower depth devText (s.map (fun x => x.2.1)) (s.map (fun x => x.2.2)) := by
    intro p' s hp' hs
    rw [TestedOn, List.forall₂_map_left_iff, List.forall₂_map_right_iff, List.forall₂_same]
    intro x hx
    obtain ⟨sd, hsd, ⟨r, r1, r2⟩, _⟩ := forall₂_mem_right hs hx
    rw [hlist] at hsd
    exact hround sd hsd p' hp' r (List.mem_of_getElem? r1) _ _ r2
  have hsnd : ∀ l : List (Nat × TagFn × ScoreTable), (l.map (fun x => (x.1, x.2.1))).map Prod.snd = l.map (fun x => x.2.1) := by
    intro l
    rw [List.map_map]
    rfl
  have hshare : ∀ {text : Str} {tags : List TagFn} {ts : List ScoreTable} {avg : ScoreTable}, PlainFile text →
      TestedOn lower depth text tags ts → averageScores a.printFields (ts.map some) = .ok avg →
      ∀ m ∈ fileMetrics, m.1 ∈ a.printFields → ∃ s, avg.get? m.1 = some s ∧ AverageShare depth text tags m s := by
    intro text tags ts avg hf htst havg m hm hmf
    obtain ⟨docs, hdocs⟩ : ∃ docs, readFromStr 1 defaultCols text = .ok (docs, none) := by
      cases htst with
      | nil => exact absurd havg (average_none hn hne)
      | cons hx _ =>
        obtain ⟨docs, _, _, _, a1, _⟩ := tested_scores hf hd hx.2 hx.1
        exact ⟨docs, a1⟩
    obtain ⟨_, _, hs⟩ := average_share hdocs hf hd hne hn hp htst havg
    obtain ⟨s, s1, q, hq, s2⟩ := hs m hm hmf
    refine ⟨s, s1, docs, tags.map (fun tag => rightOf depth text tag m), q, hdocs, ?_, ?_, s2⟩
    · rw [List.forall₂_map_right_iff, List.forall₂_same]
      intro tag htag
      obtain ⟨t, _, k1, k2⟩ := forall₂_mem_left htst htag
      simpa using (tested_right hdocs hf hd k2 k1).1 [m]
    · rw [hq, List.map_map]
      rfl
  refine ⟨b, p, fun i => (F i).map (fun x => (x.1, x.2.1)), dev, h1, h2, h3, ?_, ?_, ?_, ?_⟩
  · intro i p' hi
    have hs := ((hF i).2 p' hi).1
    rw [SelectedFor, hlist] at hs
    rw [List.forall₂_map_right_iff]
    have hmem := List.mem_of_getElem? hi
    clear h4 h5 hb htested
    suffices H : ∀ sds : List Str, (∀ s ∈ sds, s ∈ seeds) → ∀ l : List (Nat × TagFn × ScoreTable), List.Forall₂ (fun s x => BestAt a.cmpFields a.cmpMetric
        (train s p') x.1 x.2.1 x.2.2) sds l → List.Forall₂ (fun (s : Str) (x : Nat × TagFn × ScoreTable) => ∃ r t, (train s p')[x.1]? = some r ∧
        r.outcome = .ok (some t, x.2.1) ∧ ∀ (j : Nat) (r' : Round TagFn), (train s p')[j]? = some r' → j ≠ x.1 →
          ∃ t' tag' c c', r'.outcome = .ok (some t', tag') ∧ RightWords depth devText x.2.1 ms c ∧
            RightWords depth devText tag' ms c' ∧ c' ≤ c ∧ (j < x.1 → c' < c)) sds l from H seeds (fun _ h => h) _ hs
    intro sds hsub l hl
    induction hl with
    | nil => exact .nil
    | @cons sd x sds l hx _ ih =>
      refine .cons ?_ (ih (fun s h => hsub s (List.mem_cons_of_mem _ h)))
      have hsd := hsub sd List.mem_cons_self
      obtain ⟨⟨r, r1, r2⟩, hbest⟩ := hx
      obtain ⟨q1, q2⟩ := hround sd hsd p' hmem r (List.mem_of_getElem? r1) _ _ r2
      refine ⟨r, _, r1, r2, fun j r' hj hje => ?_⟩
      obtain ⟨t', tag', v, w, k1, k2, k3, k4, k5⟩ := hbest j r' hj hje
      obtain ⟨l1, l2⟩ := hround sd hsd p' hmem r' (List.mem_of_getElem? hj) _ _ k1
      rw [hcmp] at k2 k3
      obtain ⟨c', c, m1, m2, m3, m4⟩ := more_right hdev hd hms l2 q2 l1 q1 k2 k3
      refine ⟨t', tag', c, c', k1, m2, m1, m3 ?_, fun hl => m4 (k4 hl)⟩
      rcases Nat.lt_or_gt_of_ne hje with hl | hl
      · exact (k4 hl).le
      · exact k5 hl
  · intro i p' hi hib
    obtain ⟨hs, hcmp'⟩ := (hF i).2 p' hi
    obtain ⟨other, v, w, s2, s3, s4, s5, s6⟩ := hcmp' hib
    rw [hcmp] at s3 s4
    simp only [hsnd, hb]
    have hlen : ((F i).map (fun x => x.2.1)).length = (sel.map (fun x => x.2.1)).length := by
      rw [List.length_map, List.length_map, ← hs.length_eq, ← h4.length_eq]
    obtain ⟨c', c, m1, m2, m3, m4⟩ := more_right_together hdev hd hne hn hp hms hlen
      (htested (List.mem_of_getElem? hi) hs) (htested (List.mem_of_getElem? h1) h4) (htog s2) (htog h5) s3 s4
    refine ⟨c, c', m2, m1, m3 ?_, fun hl => m4 (s5 hl)⟩
    rcases Nat.lt_or_gt_of_ne hib with hl | hl
    · exact (s5 hl).le
    · exact s6 hl
  · simp only [hsnd, hb]
    exact hshare hdev (htested (List.mem_of_getElem? h1) h4) (htog h5)
  · simp only [hsnd, hb]
    intro testText hft hot htst hnone
    cases hat : a.test with
    | none => exact absurd hat hnone
    | some test =>
      obtain ⟨ts, t, g1, g2, g3⟩ := h8 test hat
      refine ⟨t, g3, hshare hft ?_ (htog g2)⟩
      rw [TestedOn, List.forall₂_map_left_iff]
      refine forall₂_imp_mem g1 ?_
      intro x y hx hy
      have hx' : (x.1, x.2.1) ∈ sel.map (fun x => (x.1, x.2.1)) := List.mem_map.2 ⟨x, hx, rfl⟩
      exact ⟨by rw [← hy, htst test hat _ hx'], hot _ hx'⟩

namespace Demo

/-- Two seeds: the model is learned by heart with one of them, and with one of the sets of parameters. -/
def twoSeeds (mixed heart : Round TagFn) : RunArgs Bool TagFn :=
  { twoRounds mixed heart with
    seeds := .many ["1".toList, "2".toList]
    printFields := ["UPOS".toList, "Lemmas".toList]
    trainer := some fun s p => [mixed, if p && s == "1".toList then heart else mixed] }

def seedsRun : RunArgs Bool TagFn := twoSeeds (letterRound (letterTagger mixedNet)) (letterRound (letterTagger letterNet))

/-- The run ends; the share of right parts of speech is 1 with one seed, 2/3 with the other, and 5/6 on average. -/
theorem seedsRun_ends : (seedsRun.main []).value.toOption.map (fun fin => (fin.params, fin.dev.map (·.get? "UPOS".toList))) =
    some (some true, some (some ⟨5 / 6, 5 / 6, 5 / 6, some (5 / 6)⟩)) := by
  rw [seedsRun, mixed_round, heart_round]
  decide +kernel

end Demo

example : ∃ fin, (Demo.seedsRun.main []).value = .ok fin ∧ ∃ (sel : Nat → List (Nat × TagFn)) (dev : ScoreTable) (b : Nat),
    fin.dev = some dev ∧ ∃ s, dev.get? "UPOS".toList = some s ∧
      AverageShare 10 Demo.letterFile ((sel b).map Prod.snd) fileMetrics[0] s ∧ s.f1 = 5 / 6 := by
  have he := Demo.seedsRun_ends
  generalize hv : (Demo.seedsRun.main []).value = v at he
  cases v with
  | error e => cases he
  | ok fin =>
    have a1 : Demo.seedsRun.trainer = some fun s p => [Demo.letterRound (Demo.letterTagger Demo.mixedNet),
      if p && s == "1".toList then Demo.letterRound (Demo.letterTagger Demo.letterNet)
      else Demo.letterRound (Demo.letterTagger Demo.mixedNet)] := rfl
    have a2 : Demo.seedsRun.seeds = .many ["1".toList, "2".toList] := rfl
    have a3 : Demo.seedsRun.printFields = ["UPOS".toList, "Lemmas".toList] := rfl
    have a4 : Demo.seedsRun.cmpFields = [fileMetrics[0], fileMetrics[4]].map Prod.fst := rfl
    have a5 : ∀ m ∈ [fileMetrics[0], fileMetrics[4]], m ∈ fileMetrics := by simp [fileMetrics]
    obtain ⟨b, p, sel, dev, _, _, h3, _, _, h6, _⟩ := C145_average Demo.seedsRun [] a1 a2 (by rw [a3]; decide)
      (by rw [a3]; decide) (by rw [a3]; decide +kernel) hv (lower := id) (depth := 10) (by decide) a5 a4
      Demo.letter_plainFile (fun s _ p _ r hr table tag ho => Demo.letter_rounds hr ho)
    obtain ⟨s, s1, s2⟩ := h6 (fileMetrics[0]) List.mem_cons_self (by rw [a3]; exact List.mem_cons_self)
    refine ⟨fin, rfl, sel, dev, b, h3, s, s1, s2, ?_⟩
    have s1' : dev.get? "UPOS".toList = some s := s1
    simp only [Except.toOption, Option.map_some, h3, s1', Option.some.injEq, Prod.mk.injEq] at he
    rw [he.2]

end Verif
