import Verif.Spec.SeedsAlone
import Verif.Model.SharedData
import Verif.Props.Averages

/-! # C146: several seeds, and each of them alone -/

namespace Verif

/-- Two computations end with related values, or with the same exception. -/
def SameOut {α β : Type} (R : α → β → Prop) : Res α → Res β → Prop
  | .ok a, .ok b => R a b
  | .error e, .error e' => e = e'
  | _, _ => False

theorem SameOut.bind {α β γ δ : Type} {R : α → β → Prop} {S : γ → δ → Prop} {x : Tr α} {y : Tr β} {f : α → Tr γ} {g : β → Tr δ}
    (h : SameOut R x.value y.value) (hf : ∀ a b, R a b → SameOut S (f a).value (g b).value) :
    SameOut S (x.bind f).value (y.bind g).value := by
  unfold Tr.bind
  cases hx : x.value with
  | error e =>
    cases hy : y.value with
    | error e' => rw [hx, hy] at h; exact h
    | ok b => rw [hx, hy] at h; exact h.elim
  | ok a =>
    cases hy : y.value with
    | error e' => rw [hx, hy] at h; exact h.elim
    | ok b => rw [hx, hy] at h; exact hf a b h

theorem SameOut.loop {σ σ' α : Type} {R : σ → σ' → Prop} {f : σ → α → Tr σ} {g : σ' → α → Tr σ'}
    (hf : ∀ s s' a, R s s' → SameOut R (f s a).value (g s' a).value) : ∀ (l : List α) (s : σ) (s' : σ'), R s s' →
    SameOut R (Tr.loop f s l).value (Tr.loop g s' l).value
  | [], _, _, h => h
  | a :: l, s, s', h => SameOut.bind (hf s s' a h) (fun t t' ht => SameOut.loop hf l t t' ht)

theorem SameOut.same {α : Type} (r : Res α) : SameOut Eq (Tr.lift r).value (Tr.lift r).value := by
  cases r <;> rfl

/-- The variables of two searches, apart from places. -/
def SamePick {τ : Type} (st st' : Pick τ) : Prop := st.index = st'.index ∧ st.best = st'.best ∧ st.scores = st'.scores

theorem single_same {π π' τ : Type} {a : RunArgs π τ} {a' : RunArgs π' τ} (hp : a'.printFields = a.printFields)
    (hc : a'.cmpFields = a.cmpFields) (hm : a'.cmpMetric = a.cmpMetric) {train : Str → π → List (Round τ)} {p : π} {s : Str}
    {train' : Str → π' → List (Round τ)} {p' : π'} (htr : train' s p' = train s p) (path path' : List Str) :
    SameOut (fun r r' => r.1.2 = r'.1.2 ∧ r.2 = r'.2) (a.single train p path s).value (a'.single train' p' path' s).value := by
  unfold RunArgs.single
  rw [htr]
  have hany : ∀ {x x' : Tr Unit}, (∃ u, x.value = .ok u) → (∃ u, x'.value = .ok u) → SameOut (fun _ _ => True) x.value x'.value := by
    rintro x x' ⟨u, hu⟩ ⟨u', hu'⟩
    rw [hu, hu']
    trivial
  have hdis : ∀ {ρ : Type} (b : RunArgs ρ τ) ps, ∃ u, (b.dispose ps).value = .ok u := by
    intro ρ b ps
    obtain ⟨u, h, _⟩ := b.dispose_ends ps
    exact ⟨u, h⟩
  refine SameOut.bind (R := SamePick) (SameOut.loop ?_ _ _ _ ⟨rfl, rfl, rfl⟩) ?_
  · intro st st' r hst
    unfold RunArgs.epoch RunArgs.tryOne
    refine SameOut.bind (R := Eq) ?_ ?_
    · unfold RunArgs.round
      refine SameOut.bind (hany ⟨(), rfl⟩ ⟨(), rfl⟩) fun _ _ _ => ?_
      refine SameOut.bind (hany ⟨(), rfl⟩ ⟨(), rfl⟩) fun _ _ _ => ?_
      refine SameOut.bind (SameOut.same _) fun x y hxy => ?_
      subst hxy
      rw [hp]
      exact SameOut.bind (SameOut.same _) fun _ _ _ => rfl
    · rintro x y rfl
      unfold RunArgs.choose
      rw [hc, hm, ← hst.2.2]
      refine SameOut.bind (SameOut.same _) ?_
      rintro b b' rfl
      cases b with
      | true =>
        rw [if_pos rfl, if_pos rfl]
        refine SameOut.bind (hany (hdis _ _) (hdis _ _)) fun _ _ _ => ?_
        exact ⟨by rw [hst.1], rfl, rfl⟩
      | false =>
        rw [if_neg (by decide), if_neg (by decide)]
        refine SameOut.bind (hany (hdis _ _) (hdis _ _)) fun _ _ _ => ?_
        exact ⟨by rw [hst.1], hst.2.1, rfl⟩
  · intro st st' hst
    rw [hp, ← hst.2.2]
    exact SameOut.bind (SameOut.same _) fun _ _ _ => ⟨hst.2.1, rfl⟩

theorem forM'_each {σ α : Type} {f : σ → α → Res σ} : ∀ {l : List α} {s r : σ}, forM' f s l = .ok r →
    ∀ x ∈ l, ∃ s1 s2, f s1 x = .ok s2
  | [], _, _, _, x, hx => by cases hx
  | a :: l, s, r, h, x, hx => by
    cases ha : f s a with
    | error e => simp [forM', ha] at h
    | ok s' =>
      simp only [forM', ha] at h
      rcases List.mem_cons.1 hx with rfl | hx
      · exact ⟨s, s', ha⟩
      · exact forM'_each h x hx

/-- What is averaged has all metrics. -/
theorem average_fields {fields : List Str} {scores : List (Option ScoreTable)} {avg : ScoreTable}
    (h : averageScores fields scores = .ok avg) : ∀ t, some t ∈ scores → ∀ f ∈ fields, ∃ s, t.get? f = some s := by
  intro t ht f hf
  unfold averageScores at h
  split at h
  · cases h
  · rename_i sums hs
    obtain ⟨s1, s2, h1⟩ := forM'_each hs _ ht
    obtain ⟨s1, s2, h2⟩ := forM'_each h1 _ hf
    unfold addMetric at h2
    split at h2
    · cases h2
    · cases hx : t.getItem f with
      | error e => simp [hx] at h2
      | ok x =>
        unfold Dict.getItem at hx
        split at hx
        · rename_i v hv
          exact ⟨v, hv⟩
        · cases hx

theorem forall₂_zip_right {α β γ : Type} {R : α → β → Prop} {S : β → γ → Prop} {T : α → β × γ → Prop} {as : List α} {bs : List β}
    {cs : List γ} (h1 : List.Forall₂ R as bs) (h2 : List.Forall₂ S bs cs)
    (h : ∀ a b c, R a b → S b c → c ∈ cs → T a (b, c)) : List.Forall₂ T as (bs.zip cs) := by
  induction h1 generalizing cs with
  | nil => cases h2; exact .nil
  | cons hr hrs ih =>
    cases h2 with
    | cons hs hss =>
      exact .cons (h _ _ _ hr hs (by simp)) (ih hss fun a b c ha hb hc => h a b c ha hb (by simp [hc]))

/-- A run with one seed and one set of parameters, otherwise like a given one. -/
structure OneOf {π π' τ : Type} (a : RunArgs π τ) (train : Str → π → List (Round τ)) (s : Str) (p : π) (a' : RunArgs π' τ)
    (p' : π') : Prop where
  modelDir : a'.modelDir = a.modelDir
  deleteAfter : a'.deleteAfter = a.deleteAfter
  seeds : a'.seeds = .one s
  printFields : a'.printFields = a.printFields
  cmpFields : a'.cmpFields = a.cmpFields
  cmpMetric : a'.cmpMetric = a.cmpMetric
  trainer : ∃ train', a'.trainer = some train' ∧ train' s p' = train s p
  test : a'.test = a.test
  hyperparams : a'.hyperparams = .inl p'

/-- The run with one seed and one set of parameters, from its parts. -/
theorem alone_main {π π' τ : Type} (a : RunArgs π τ) {disk : List (List Str)} (hd : a.Allowed disk)
    {train : Str → π → List (Round τ)} {s : Str} {p : π} {a' : RunArgs π' τ} {p' : π'} (ho : OneOf a train s p a' p')
    {path : List Str} {r : (List Str × Option τ) × Option ScoreTable} (h : (a.single train p path s).value = .ok r)
    {t : Option ScoreTable} (htest : match a.test with
      | none => t = none
      | some test => ∃ tb, t = some tb ∧ (test r.1.2).2 = .ok tb ∧ ∀ f ∈ a.printFields, ∃ s, tb.get? f = some s) :
    (a'.main disk).value = .ok ⟨some p', r.2, t⟩ := by
  obtain ⟨train', ht, htr⟩ := ho.trainer
  have hsame := single_same (a := a) (a' := a') ho.printFields ho.cmpFields ho.cmpMetric htr path [paramsName 0]
  rw [h] at hsame
  cases hr : (a'.single train' p' [paramsName 0] s).value with
  | error e => rw [hr] at hsame; exact hsame.elim
  | ok r' =>
    rw [hr] at hsame
    obtain ⟨e1, e2⟩ := hsame
    have hprint : printMetrics a.printFields r.2 = .ok () := by
      unfold RunArgs.single at h
      obtain ⟨st, _, h2, _⟩ := Tr.bind_value h
      obtain ⟨_, h3, h4, _⟩ := Tr.bind_value h2
      injection h4 with h4
      rw [← h4]
      exact h3
    have hcont : ¬ (a'.deleteAfter && hasContent disk a'.modelDir) = true := by
      intro hc
      rw [Bool.and_eq_true, ho.deleteAfter, ho.modelDir] at hc
      rcases hd with hd | hd
      · rw [hd] at hc
        cases hc.1
      · obtain ⟨q, hq, h1, h2⟩ := (hasContent_iff _ _).1 hc.2
        exact h2 (hd q hq h1)
    have hev : (a'.candidate train' 0 p').value = .ok ((p', [r'.1]), r'.2) := by
      have h1 : (a'.evaluateParams train' p' [paramsName 0]).value = .ok ([r'.1], r'.2) := by
        unfold RunArgs.evaluateParams
        rw [ho.seeds]
        simp only
        rw [Tr.bind_ok hr]
        rfl
      unfold RunArgs.candidate
      rw [Tr.bind_ok h1]
      rfl
    have hloop : (Tr.loop (a'.paramsStep train') {} [p']).value = .ok
        ⟨1, some (p', [r'.1]), r'.2, some [paramsName 0]⟩ := by
      have hstep : (a'.paramsStep train' {} p').value = .ok ⟨1, some (p', [r'.1]), r'.2, some [paramsName 0]⟩ := by
        unfold RunArgs.paramsStep RunArgs.tryOne
        rw [Tr.bind_ok hev]
        unfold RunArgs.choose
        obtain ⟨u, hu, _⟩ := a'.dispose_ends []
        have hb : (Tr.lift (isBetter (scoreBetter a'.cmpFields a'.cmpMetric) r'.2 none)).value = .ok true := rfl
        show (Tr.bind _ _).value = _
        rw [Tr.bind_ok hb]
        show (Tr.bind (a'.dispose []) _).value = _
        rw [Tr.bind_ok hu]
        rfl
      rw [Tr.loop, Tr.bind_ok hstep]
      rfl
    have htests : (a'.testScores (some (p', [r'.1]))).value = .ok t := by
      unfold RunArgs.testScores
      rw [ho.test]
      cases hat : a.test with
      | none =>
        rw [hat] at htest
        subst htest
        rfl
      | some test =>
        rw [hat] at htest
        obtain ⟨tb, rfl, h1, h2⟩ := htest
        have h3 : (a'.finalTest test (some (p', [r'.1]))).value = .ok tb := by
          unfold RunArgs.finalTest
          rw [ho.seeds]
          show (a'.testOne r'.1.1 r'.1.2 test).value = _
          rw [← e1]
          exact h1
        have h4 : (Tr.lift (printMetrics a'.printFields (some tb))).value = .ok () :=
          printMetrics_ok.2 fun f hf => by
            rw [ho.printFields] at hf
            obtain ⟨x, hx⟩ := h2 f hf
            exact ⟨tb, x, rfl, hx⟩
        simp only
        rw [Tr.bind_ok h3]
        simp only
        rw [Tr.bind_ok h4]
        rfl
    unfold RunArgs.main
    rw [if_neg hcont, ht]
    simp only
    have hl : hyperList a'.hyperparams = [p'] := by
      rw [ho.hyperparams]
      rfl
    have hpr : (Tr.lift (printMetrics a'.printFields r'.2)).value = .ok () := by
      rw [← e2, ho.printFields]
      exact hprint
    rw [hl, Tr.bind_ok hloop]
    simp only
    rw [Tr.bind_ok hpr]
    simp only
    rw [Tr.bind_ok htests]
    simp only
    rw [← e2]
    cases a'.deleteAfter <;> rfl

/-- What is reported for several seeds, if a training depends on its seed and its parameters only. -/
theorem alone_average {π τ : Type} (a : RunArgs π τ) {train : Str → π → List (Round τ)} (ht : a.trainer = some train)
    {seeds : List Str} (hs : a.seeds = .many seeds) (hne : a.printFields ≠ []) {disk disk' : List (List Str)} {fin : Final π}
    (h : (a.main disk).value = .ok fin) (hd : a.Allowed disk') {π' : Type} {other : Str → π → RunArgs π' τ} {q : π → π'}
    (ho : ∀ s p, OneOf a train s p (other s p) (q p)) :
    ∃ p fins dev, fin.params = some p ∧ p ∈ hyperList a.hyperparams ∧
      List.Forall₂ (fun s f => ((other s p).main disk').value = .ok f) seeds fins ∧
      averageScores a.printFields (fins.map Final.dev) = .ok dev ∧ fin.dev = some dev ∧
      (a.test = none → fin.test = none) ∧
      (a.test ≠ none → ∃ t, averageScores a.printFields (fins.map Final.test) = .ok t ∧ fin.test = some t) := by
  obtain ⟨st, t, h1, h2, h3, rfl, _⟩ := a.main_ok ht h
  obtain ⟨t0, ht0⟩ := printMetrics_some hne h2
  obtain ⟨ys, h4, sl, h5, rfl⟩ := a.search_spec h1
  rcases h5.stored with ⟨_, rfl⟩ | ⟨b, c, h6, h7, h8, _⟩
  · cases ht0
  rw [List.getElem?_map, Option.map_eq_some_iff] at h6
  obtain ⟨y, hy, rfl⟩ := h6
  obtain ⟨p, hpm, hy'⟩ := forall₂_zipIdx_get' h4 hy
  obtain ⟨r, h9, rfl, _⟩ := a.candidate_value hy'
  unfold RunArgs.evaluateParams at h9
  rw [hs] at h9
  simp only at h9
  obtain ⟨rs, k1, k2, _⟩ := Tr.bind_value h9
  obtain ⟨avg, k3, k4, _⟩ := Tr.bind_value k2
  obtain ⟨_, _, k5, _⟩ := Tr.bind_value k4
  injection k5 with k5
  subst k5
  have k6 := (Tr.mapM_value k1).1
  have h7 : sl.pick.best = some (p, rs.map Prod.fst) := h7
  have h8 : sl.pick.scores = some avg := h8
  rw [h7] at h3 ⊢
  rw [h8]
  unfold RunArgs.testScores at h3
  cases hat : a.test with
  | none =>
    rw [hat] at h3
    injection h3 with h3
    subst h3
    refine ⟨p, rs.map (fun r => ⟨some (q p), r.2, none⟩), avg, rfl, List.mem_of_getElem? hpm, ?_, ?_, rfl, fun _ => rfl, fun hc => absurd rfl hc⟩
    · rw [List.forall₂_map_right_iff]
      refine k6.imp fun s r hr => ?_
      exact alone_main a hd (ho s p) hr (by rw [hat])
    · rw [List.map_map]
      exact k3
  | some test =>
    rw [hat] at h3
    simp only at h3
    obtain ⟨tb, m1, m2, _⟩ := Tr.bind_value h3
    obtain ⟨_, _, m3, _⟩ := Tr.bind_value m2
    injection m3 with m3
    subst m3
    unfold RunArgs.finalTest at m1
    rw [hs] at m1
    simp only at m1
    obtain ⟨ts, m4, m5, _⟩ := Tr.bind_value m1
    have m6 := (Tr.mapM_value m4).1
    rw [List.forall₂_map_left_iff] at m6
    have hts := average_fields m5
    have hlen := m6.length_eq
    refine ⟨p, (rs.zip ts).map (fun x => ⟨some (q p), x.1.2, some x.2⟩), avg, rfl, List.mem_of_getElem? hpm, ?_, ?_, rfl, (fun hc => by cases hc), fun _ =>
      ⟨tb, ?_, rfl⟩⟩
    · rw [List.forall₂_map_right_iff]
      refine forall₂_zip_right k6 m6 fun s r x hr hx hx' => ?_
      refine alone_main a hd (ho s p) hr ?_
      rw [hat]
      refine ⟨x, rfl, ?_, hts x (List.mem_map.2 ⟨x, hx', rfl⟩)⟩
      exact hx
    · rw [List.map_map]
      have : (Final.dev ∘ fun x : ((List Str × Option τ) × Option ScoreTable) × ScoreTable => (⟨some (q p), x.1.2, some x.2⟩ : Final π')) =
          Prod.snd ∘ Prod.fst := rfl
      rw [this, ← List.map_map, List.map_fst_zip (by omega)]
      exact k3
    · rw [List.map_map]
      have : (Final.test ∘ fun x : ((List Str × Option τ) × Option ScoreTable) × ScoreTable => (⟨some (q p), x.1.2, some x.2⟩ : Final π')) =
          some ∘ Prod.snd := rfl
      rw [this, ← List.map_map, List.map_snd_zip (by omega)]
      exact m5

/-- C146: if a training depends on its seed and its parameters only, the scores reported for several seeds are the averages of
those reported by the runs with each seed alone and the reported parameters. -/
theorem C146_average {π τ : Type} (a : RunArgs π τ) {train : Str → π → List (Round τ)} (ht : a.trainer = some train)
    {seeds : List Str} (hs : a.seeds = .many seeds) (hne : a.printFields ≠ []) {disk disk' : List (List Str)} {fin : Final π}
    (h : (a.main disk).value = .ok fin) (hd : a.Allowed disk') :
    ∃ p fins dev, fin.params = some p ∧ p ∈ hyperList a.hyperparams ∧
      List.Forall₂ (fun s f => ((a.alone s p).main disk').value = .ok f) seeds fins ∧
      averageScores a.printFields (fins.map Final.dev) = .ok dev ∧ fin.dev = some dev ∧
      (a.test = none → fin.test = none) ∧
      (a.test ≠ none → ∃ t, averageScores a.printFields (fins.map Final.test) = .ok t ∧ fin.test = some t) :=
  alone_average a ht hs hne h hd (q := id) fun _ _ => ⟨rfl, rfl, rfl, rfl, rfl, rfl, ⟨train, ht, rfl⟩, rfl, rfl⟩

/-- C146: the same when the trainings share a data set that is the same whenever it is iterated over. -/
theorem C146_partial {π τ : Type} (a : RunArgs π τ) (uses : π → Nat) (trainAt : Nat → Str → π → List (Round τ))
    (hc : ∀ n s p, trainAt n s p = trainAt 0 s p)
    {seeds : List Str} (hs : a.seeds = .many seeds) (hne : a.printFields ≠ []) {disk disk' : List (List Str)}
    {fin : Final (π × Nat)} (h : ((a.shared uses trainAt).main disk).value = .ok fin) (hd : a.Allowed disk') :
    ∃ p i fins dev, fin.params = some (p, i) ∧ (hyperList a.hyperparams)[i]? = some p ∧
      List.Forall₂ (fun s f => (((a.alone s p).shared uses trainAt).main disk').value = .ok f) seeds fins ∧
      averageScores a.printFields (fins.map Final.dev) = .ok dev ∧ fin.dev = some dev ∧
      (a.test = none → fin.test = none) ∧
      (a.test ≠ none → ∃ t, averageScores a.printFields (fins.map Final.test) = .ok t ∧ fin.test = some t) := by
  obtain ⟨p, fins, dev, h1, h2, h3⟩ := alone_average (a.shared uses trainAt) rfl hs hne h hd
    (other := fun s p => (a.alone s p.1).shared uses trainAt) (q := fun p => (p.1, 0)) fun s p =>
      ⟨rfl, rfl, rfl, rfl, rfl, rfl, ⟨_, rfl, (hc _ s p.1).trans (hc _ s p.1).symm⟩, rfl, rfl⟩
  refine ⟨p.1, p.2, fins, dev, h1, ?_, h3⟩
  unfold RunArgs.shared at h2
  cases hh : a.hyperparams with
  | inl q =>
    rw [hh] at h2
    simp only [hyperList, List.mem_singleton] at h2
    subst h2
    rfl
  | inr l =>
    rw [hh] at h2
    exact List.mem_zipIdx_iff_getElem?.1 h2

/-- C146: a training on a file without `shuffler` does not depend on how often the data set has been used. -/
theorem C146_file {F μ τ : Type} (lower : Str → Str) (float : Str → Res F) (zero : F) (other : TextToken) (sp : Nat → Sparsify)
    (ps : List Provider) (docs : List Document) (pos : LeafSpec → Nat) (builds : Nat)
    (build : Dict Str Shape → Dict Str (InitRows F) → Res μ) (opt : μ → Features × Features → Rat → Res (μ × Rat))
    (cfg : TrainCfg) (dir : List Str) (dev : Seen → Option (Nat → List Str × μ → Res ScoreTable)) (mk : List Str × μ → τ)
    (written : Bool) (n : Nat) :
    roundsOf mk written (neuralAt lower float zero other sp ps (fun _ => docs) pos builds build opt cfg dir dev n) =
      roundsOf mk written (neuralAt lower float zero other sp ps (fun _ => docs) pos builds build opt cfg dir dev 0) := rfl

deriving instance DecidableEq for Round

namespace Demo

/-- The letters, shuffled with buffers of two; the order differs from that of the file the eighth time only. -/
def shuffledLetters (k : Nat) : List Document :=
  (shuffledIterNth (fun k => if k = 7 then 0 else 1) (fun s _ => s) 2 letterDocs k).toOption.getD []

/-- An optimiser that remembers how many words the first sentence has. -/
def firstWords (m : Nat) (step : Features × Features) (_ : Rat) : Res (Nat × Rat) :=
  match step.1.get? "w".toList with
  | some (.list [.list ws]) => .ok (if m = 0 then ws.length else m, 0)
  | _ => .error .key

/-- One epoch on the shuffled letters. -/
def shuffledAt (n : Nat) : Res (TrainSt Nat × Option Err) :=
  neuralAt id float 0 (ptok 0) (fun _ => keepAll) letterProviders shuffledLetters
    (fun s => match s with
      | .trainable .. => 0
      | .lemmaDict _ => 1
      | _ => 2) 3
    (fun _ _ => .ok 0) firstWords ⟨1, 0, 1, 1, 1⟩ ["m".toList]
    (fun seen => some fun _ m => testFile id 10 letterFile
      (mapM' (trainedTag id float 0 (ptok 0) seen letterProviders (if m.2 = 2 then letterNet else mixedNet)))) n

/-- Two seeds; a training iterates over the data set four times. -/
def shuffledRun : RunArgs Unit Nat where
  modelDir := ["m".toList]
  deleteAfter := true
  seeds := .many ["1".toList, "2".toList]
  printFields := ["UPOS".toList]
  cmpFields := ["UPOS".toList]
  cmpMetric := "f1".toList
  devResults := none
  trainer := none
  testResults := none
  test := none
  hyperparams := .inl ()

theorem shuffledLetters_eq (k : Nat) :
    shuffledIterNth (fun k => if k = 7 then 0 else 1) (fun s _ => s) 2 letterDocs k = .ok (shuffledLetters k) := by
  have h : ∀ x, x < 2 → ∃ l, shuffledIter (fun _ => x) 2 letterDocs = .ok l := by
    intro x hx
    have : (shuffledIter (fun _ => x) 2 letterDocs).isOk = true := by
      have h2 : x = 0 ∨ x = 1 := by omega
      rcases h2 with rfl | rfl <;> decide +kernel
    cases hs : shuffledIter (fun _ => x) 2 letterDocs with
    | error e => rw [hs] at this; cases this
    | ok l => exact ⟨l, rfl⟩
  unfold shuffledLetters shuffledIterNth
  obtain ⟨l, hl⟩ := h ((if k = 7 then 0 else 1) % 1000000) (by split <;> decide)
  rw [hl]
  rfl

/-- Both seeds in one run. -/
theorem shuffled_both :
    ((shuffledRun.shared (fun _ => 4) (fun n _ _ => roundsOf Prod.snd true (shuffledAt n))).main []).value.toOption.map
      (fun fin => fin.dev.map (·.get? "UPOS".toList)) = some (some (some ⟨5 / 6, 5 / 6, 5 / 6, some (5 / 6)⟩)) := by
  decide +kernel

/-- Each seed alone. -/
theorem shuffled_alone : ∀ s ∈ ["1".toList, "2".toList],
    (((shuffledRun.alone s ()).shared (fun _ => 4) (fun n _ _ => roundsOf Prod.snd true (shuffledAt n))).main []).value.toOption.map
      (fun fin => fin.dev) = some (some (letterScores 1 1 1 1 1)) := by
  decide +kernel

end Demo

/-- C146 does not hold for a shuffled data set: what a training gets depends on the trainings before it. -/
theorem C146_shuffled_refuted : ¬ ∀ (a : RunArgs Unit Nat) (uses : Unit → Nat) (trainAt : Nat → Str → Unit → List (Round Nat)),
    TrainedShuffled trainAt → ∀ (seeds : List Str), a.seeds = .many seeds → a.printFields ≠ [] → ∀ fin,
    ((a.shared uses trainAt).main []).value = .ok fin →
    ∃ p fins dev, List.Forall₂ (fun s f => (((a.alone s p).shared uses trainAt).main []).value = .ok f) seeds fins ∧
      averageScores a.printFields (fins.map Final.dev) = .ok dev ∧ fin.dev = some dev := by
  intro hall
  have hb := Demo.shuffled_both
  generalize hv : ((Demo.shuffledRun.shared (fun _ => 4) (fun n _ _ => roundsOf Prod.snd true (Demo.shuffledAt n))).main []).value
    = v at hb
  cases v with
  | error e => cases hb
  | ok fin =>
    obtain ⟨p, fins, dev, h1, h2, h3⟩ := hall Demo.shuffledRun _ _
      ⟨_, _, _, _, _, Demo.shuffledLetters_eq, _, _, _, _, _, _, _, _, _, _, fun _ _ => _, fun _ _ => _, fun _ => _, _, _, _, _,
        fun _ _ _ => rfl⟩ _ rfl (by decide) fin hv
    have hfins : fins.map Final.dev = [some (Demo.letterScores 1 1 1 1 1), some (Demo.letterScores 1 1 1 1 1)] := by
      have key : ∀ s f, s ∈ ["1".toList, "2".toList] →
          (((Demo.shuffledRun.alone s p).shared (fun _ => 4) (fun n _ _ => roundsOf Prod.snd true (Demo.shuffledAt n))).main []).value =
            .ok f → f.dev = some (Demo.letterScores 1 1 1 1 1) := by
        intro s f hs hf
        have := Demo.shuffled_alone s hs
        rw [hf] at this
        injection this
      cases h1 with
      | cons g1 g2 =>
        cases g2 with
        | cons g2 g3 =>
          cases g3
          simp [key _ _ (by simp) g1, key _ _ (by simp) g2]
    rw [hfins] at h2
    have h5 : (averageScores Demo.shuffledRun.printFields
        [some (Demo.letterScores 1 1 1 1 1), some (Demo.letterScores 1 1 1 1 1)]).toOption.map (fun d => d.get? "UPOS".toList) =
        some (some ⟨1, 1, 1, some 1⟩) := by decide +kernel
    rw [h2] at h5
    simp only [Except.toOption, Option.map_some, h3, Option.some.injEq] at hb h5
    rw [hb] at h5
    revert h5
    decide +kernel

/-- Two seeds whose trainings do not depend on what has been read before. -/
example : ∃ p i fins dev, ((Demo.shuffledRun.shared (fun _ => 4)
      (fun _ s _ => [⟨true, true, .ok (some (if s = "1".toList then Demo.mixedScores else Demo.letterScores 1 1 1 1 1), 0)⟩])).main
        []).value.toOption.map Final.params = some (some (p, i)) ∧
    List.Forall₂ (fun s f => (((Demo.shuffledRun.alone s p).shared (fun _ => 4)
      (fun _ s _ => [⟨true, true, .ok (some (if s = "1".toList then Demo.mixedScores else Demo.letterScores 1 1 1 1 1), 0)⟩])).main
        []).value = .ok f) ["1".toList, "2".toList] fins ∧
    averageScores ["UPOS".toList] (fins.map Final.dev) = .ok dev := by
  have he : ((Demo.shuffledRun.shared (fun _ => 4)
      (fun _ s _ => [⟨true, true, .ok (some (if s = "1".toList then Demo.mixedScores else Demo.letterScores 1 1 1 1 1), 0)⟩])).main
        []).value.isOk = true := by decide +kernel
  generalize hv : ((Demo.shuffledRun.shared (fun _ => 4)
      (fun _ s _ => [⟨true, true, .ok (some (if s = "1".toList then Demo.mixedScores else Demo.letterScores 1 1 1 1 1), 0)⟩])).main
        []).value = v at he
  cases v with
  | error e => cases he
  | ok fin =>
    obtain ⟨p, i, fins, dev, h1, _, h2, h3, _⟩ := C146_partial Demo.shuffledRun (fun _ => 4) _ (fun _ _ _ => rfl) rfl (by decide) hv
      (disk' := []) (.inr (by simp))
    exact ⟨p, i, fins, dev, by simp [Except.toOption, h1], h2, h3⟩

theorem take_flatMap_block {α β : Type} (f : α → List β) (m : Nat) (hf : ∀ a, (f a).length = m) : ∀ (l : List α) (i j : Nat) (a : α),
    l[i]? = some a → j ≤ m → (l.flatMap f).take (i * m + j) = (l.take i).flatMap f ++ (f a).take j
  | [], i, j, a, h, _ => by simp at h
  | b :: l, 0, j, a, h, hj => by
    simp only [List.getElem?_cons_zero, Option.some.injEq] at h
    subst h
    simp [List.take_append, hf, Nat.sub_eq_zero_of_le hj]
  | b :: l, i + 1, j, a, h, hj => by
    have ih := take_flatMap_block f m hf l i j a (by simpa using h) hj
    have e : (i + 1) * m + j = (f b).length + (i * m + j) := by rw [hf, Nat.add_mul]; omega
    rw [List.flatMap_cons, e, List.take_length_add_append, ih]
    simp

/-- C146: a training gets the data set after it has been iterated over by all trainings before it, in the order of execution. -/
theorem C146_order {π τ : Type} (a : RunArgs π τ) (uses : π → Nat) (trainAt : Nat → Str → π → List (Round τ))
    (hn : a.seeds.list.Nodup) (k i j : Nat) (p : π) (s : Str) (hk : k = i * a.seeds.list.length + j)
    (hp : (hyperList a.hyperparams)[i]? = some p) (hs : a.seeds.list[j]? = some s) :
    (trainingsOf a)[k]? = some (p, s) ∧
    ∃ train, (a.shared uses trainAt).trainer = some train ∧
      train s (p, i) = trainAt (((trainingsOf a).take k).map (fun t => uses t.1)).sum s p := by
  have hj : j < a.seeds.list.length := (List.getElem?_eq_some_iff.1 hs).1
  have hlen : ∀ q : π, (a.seeds.list.map (fun s => (q, s))).length = a.seeds.list.length := by simp
  have hord : seedOrder a.seeds = a.seeds.list := by cases a.seeds <;> rfl
  have hidx : a.seeds.list.idxOf s = j := by
    obtain ⟨_, rfl⟩ := List.getElem?_eq_some_iff.1 hs
    exact hn.idxOf_getElem j hj
  subst hk
  refine ⟨?_, _, rfl, ?_⟩
  · have h1 := take_flatMap_block _ _ hlen _ i j p hp hj.le
    have h2 := take_flatMap_block _ _ hlen _ i (j + 1) p hp hj
    have h3 : (List.take (j + 1) (a.seeds.list.map (fun s => (p, s)))) = List.take j (a.seeds.list.map (fun s => (p, s))) ++ [(p, s)] := by
      rw [List.take_add_one, List.getElem?_map, hs]; rfl
    rw [h3, ← List.append_assoc, ← h1, ← Nat.add_assoc, List.take_add_one] at h2
    have h4 := List.append_cancel_left h2
    cases h5 : ((hyperList a.hyperparams).flatMap fun q => a.seeds.list.map (fun s => (q, s)))[i * a.seeds.list.length + j]? with
    | none => rw [h5] at h4; simp at h4
    | some y => rw [h5] at h4; simp at h4; rw [trainingsOf, h5, h4]
  · simp only
    congr 1
    rw [hord, hidx, trainingsOf, take_flatMap_block _ _ hlen _ i j p hp hj.le, usedBefore, hp]
    have hblock : ∀ (q : π), (((a.seeds.list.map (fun s => (q, s)))).map (fun t => uses t.1)).sum = a.seeds.list.length * uses q := by
      intro q; simp [Function.comp_def]
    have hl : ∀ l : List π, ((l.flatMap (fun q => a.seeds.list.map (fun s => (q, s)))).map (fun t => uses t.1)).sum =
        a.seeds.list.length * (l.map uses).sum := by
      intro l
      induction l with
      | nil => simp
      | cons b l ih => rw [List.flatMap_cons, List.map_append, List.sum_append, hblock, ih, List.map_cons, List.sum_cons, Nat.mul_add]
    rw [List.map_append, List.sum_append, hl]
    congr 1
    rw [← List.map_take]
    simp [Function.comp_def, Nat.min_eq_left hj.le]

example : trainingsOf { Demo.shuffledRun with hyperparams := .inr [(), ()] } =
    [((), "1".toList), ((), "2".toList), ((), "1".toList), ((), "2".toList)] := rfl

end Verif
