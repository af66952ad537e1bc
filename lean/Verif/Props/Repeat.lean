import Verif.Spec.Repeat
import Verif.Props.SeedsAlone
import Verif.Props.Training

/-! # C148: runs can be repeated -/

namespace Verif

variable {π F μ τ : Type}

theorem sparseRate_draws {r r' : Nat → Rat} {q : Rat} (h : ∀ i, q < r i ↔ q < r' i) :
    (∀ (f : Feat) (k : Nat), sparseRate r q f k = sparseRate r' q f k) ∧
    (∀ (l : List Feat) (k : Nat), sparseRateL r q l k = sparseRateL r' q l k) := by
  have hf : ∀ f : Feat, ∀ k, sparseRate r q f k = sparseRate r' q f k := by
    intro f
    refine Feat.rec (motive_1 := fun f => ∀ k, sparseRate r q f k = sparseRate r' q f k)
      (motive_2 := fun l => ∀ k, sparseRateL r q l k = sparseRateL r' q l k) ?_ ?_ ?_ ?_ ?_ ?_ f
    · intro n k; simp only [sparseRate, gt_iff_lt, h]
    · intro n k; simp only [sparseRate, gt_iff_lt, h]
    · intro n k; rfl
    · intro l ih k; simp only [sparseRate, ih]
    · intro k; rfl
    · intro a l iha ihl k
      simp only [sparseRateL, iha]
      cases sparseRate r' q a k with
      | error e => rfl
      | ok y => simp only [ihl]
  refine ⟨hf, ?_⟩
  intro l
  induction l with
  | nil => intro k; rfl
  | cons a l ih =>
    intro k
    simp only [sparseRateL, hf]
    cases sparseRate r' q a k with
    | error e => rfl
    | ok y => simp only [ih]

/-- Iterating over the data set raises every time or never. -/
theorem pass_fails (x : Experiment π F μ τ) (gen : Int → Nat → Nat) (w : World) (k : Nat) :
    (x.pass gen w k).isOk = (x.pass gen w 0).isOk := by
  unfold Experiment.pass
  cases x.shuffler with
  | none => rfl
  | some c =>
    simp only [shuffledIterNth]
    by_cases hc : c.maxBatchSize ≤ 0
    · rw [C56_size_rejected _ hc, C56_size_rejected _ hc]
    · have key : ∀ rnd : Nat → Nat, ∃ r, shuffledIter rnd c.maxBatchSize x.docs = .ok r := by
        intro rnd
        obtain ⟨r, h, _⟩ := C56_local_permutation rnd (B := c.maxBatchSize.toNat) (by omega) x.docs
        rw [Int.toNat_of_nonneg (by omega)] at h
        exact ⟨r, h⟩
      obtain ⟨a, ha⟩ := key (gen ((gen (c.seedIn w.now) k % 1000000 : Nat) : Int))
      obtain ⟨b, hb⟩ := key (gen ((gen (c.seedIn w.now) 0 % 1000000 : Nat) : Int))
      rw [ha, hb]
      rfl

theorem Tr.loop_congr {σ α : Type} {f g : σ → α → Tr σ} : ∀ (l : List α) (s : σ), (∀ a ∈ l, ∀ s, f s a = g s a) →
    Tr.loop f s l = Tr.loop g s l
  | [], _, _ => rfl
  | a :: l, s, h => by
    unfold Tr.loop
    rw [h a (by simp) s]
    congr 1
    funext s'
    exact Tr.loop_congr l s' fun b hb => h b (by simp [hb])

/-- A run depends on what its trainer does with the given parameters. -/
theorem main_trainer {a b : RunArgs π τ} {t t' : Str → π → List (Round τ)} (hb : b = { a with trainer := some t' })
    (ha : a.trainer = some t) (h : ∀ s, ∀ p ∈ hyperList a.hyperparams, t s p = t' s p) (disk : List (List Str)) :
    a.main disk = b.main disk := by
  subst hb
  have h1 : ∀ s p path, p ∈ hyperList a.hyperparams →
      a.single t p path s = RunArgs.single { a with trainer := some t' } t' p path s := by
    intro s p path hp
    unfold RunArgs.single
    rw [h s p hp]
    rfl
  have h2 : ∀ p ∈ hyperList a.hyperparams, ∀ st, a.paramsStep t st p =
      RunArgs.paramsStep { a with trainer := some t' } t' st p := by
    intro p hp st
    unfold RunArgs.paramsStep RunArgs.tryOne
    have : ∀ n, a.candidate t n p = RunArgs.candidate { a with trainer := some t' } t' n p := by
      intro n
      unfold RunArgs.candidate RunArgs.evaluateParams
      have h3 : a.single t p [paramsName n] = RunArgs.single { a with trainer := some t' } t' p [paramsName n] :=
        funext fun s => h1 s p _ hp
      rw [h3]
    rw [this]
    rfl
  unfold RunArgs.main
  rw [ha]
  simp only
  rw [Tr.loop_congr _ _ h2]
  rfl

/-- C148: two runs in which the documents come in the same order and the same values are replaced print the same and leave the
same files. -/
theorem C148_draws (x : Experiment π F μ τ) (gen : Int → Nat → Nat) {w w' : World} (hs : x.Seeded) (hd : x.SameDraws w w')
    (disk : List (List Str)) : x.run gen w disk = x.run gen w' disk := by
  have hpass : x.pass gen w = x.pass gen w' := by
    funext k
    unfold Experiment.pass
    cases hc : x.shuffler with
    | none => rfl
    | some c =>
      have := hs c hc
      unfold ShuffleCfg.seedIn
      cases hseed : c.seed with
      | none => exact absurd hseed this
      | some s => simp only [hseed]
  unfold Experiment.run
  refine main_trainer rfl rfl ?_ disk
  intro s p hp
  have hp' : p.1 ∈ hyperList x.args.hyperparams := by
    unfold RunArgs.shared at hp
    cases hh : x.args.hyperparams with
    | inl q =>
      rw [hh] at hp
      simp only [hyperList, List.mem_singleton] at hp
      subst hp
      simp [hyperList]
    | inr l =>
      rw [hh] at hp
      exact List.mem_of_getElem? (List.mem_zipIdx_iff_getElem?.1 hp)
  show x.rounds gen w _ s p.1 = x.rounds gen w' _ s p.1
  unfold Experiment.rounds
  have hsp : ∀ n, x.sparsify w n p.1 = x.sparsify w' n p.1 := by
    intro n
    funext e o k f
    unfold Experiment.sparsify
    rw [(sparseRate_draws (fun i => hd p.1 hp' n e o k i)).1]
  rw [hpass]
  simp only [hsp]

/-- C148: with a seed for the shuffler (or without one), and if `sparse_input_prob` is 0, a run can be repeated. -/
theorem C148_partial (x : Experiment π F μ τ) (gen : Int → Nat → Nat) {w w' : World} (hs : x.Seeded) (hd : x.Dense)
    (hw : w.Positive) (hw' : w'.Positive) (disk : List (List Str)) : x.run gen w disk = x.run gen w' disk := by
  refine C148_draws x gen hs ?_ disk
  intro p hp n e o k i
  rw [hd p hp]
  exact iff_of_true (hw n e o k i).1 (hw' n e o k i).1

namespace Demo

/-- An optimiser that remembers whether the first sentence has two words that are kept. -/
def keptWords (m : Nat) (step : Features × Features) (_ : Rat) : Res (Nat × Rat) :=
  match step.1.get? "w".toList with
  | some (.list [.list ws]) => .ok (if m = 0 then (ws.filter (fun f => match f with
      | .int n => n != OOV
      | _ => true)).length else m, 0)
  | _ => .error .key

/-- One seed, one epoch; if the first sentence has two words that are kept the network is right. -/
def repeated (shuffler : Option ShuffleCfg) (rate : Rat) : Experiment Unit Int Nat Nat where
  args := { shuffledRun with seeds := .one "1".toList }
  docs := letterDocs
  shuffler := shuffler
  lower := id
  float := float
  zero := 0
  other := ptok 0
  providers := fun _ => letterProviders
  pos := fun _ s => match s with
    | .trainable .. => 0
    | .lemmaDict _ => 1
    | _ => 2
  builds := fun _ => 3
  rate := fun _ => rate
  build := fun _ _ _ _ => .ok 0
  opt := fun _ _ => keptWords
  cfg := fun _ => ⟨1, 0, 1, 1, 1⟩
  dir := fun _ _ => ["m".toList]
  dev := fun _ _ seen => some fun _ m => testFile id 10 letterFile
    (mapM' (trainedTag id float 0 (ptok 0) seen letterProviders (if m.2 = 2 then letterNet else mixedNet)))
  tagger := fun _ _ => Prod.snd
  written := true

/-- A generator that repeats its seed. -/
def sameNumber (s : Int) (_ : Nat) : Nat := s.toNat

/-- A call at a time, in which all numbers drawn are equal. -/
def callAt (now : Int) (x : Rat) : World := ⟨now, fun _ _ _ _ _ => x⟩

theorem callAt_positive {now : Int} {x : Rat} (h : 0 < x) (h' : x < 1) : (callAt now x).Positive := fun _ _ _ _ _ => ⟨h, h'⟩

/-- The score that is printed. -/
def printedTags (r : Tr (Final (Unit × Nat))) : Option (Option (Option Rat)) :=
  r.value.toOption.map fun f => f.dev.map fun t => (t.get? "UPOS".toList).map Score.f1

theorem repeated_clock : printedTags ((repeated (some ⟨none, 2⟩) 0).run sameNumber (callAt 0 (1 / 4)) []) = some (some (some (2 / 3))) ∧
    printedTags ((repeated (some ⟨none, 2⟩) 0).run sameNumber (callAt 1 (1 / 4)) []) = some (some (some 1)) := by
  decide +kernel

theorem repeated_draws : printedTags ((repeated none (1 / 2)).run sameNumber (callAt 0 (1 / 4)) []) = some (some (some (2 / 3))) ∧
    printedTags ((repeated none (1 / 2)).run sameNumber (callAt 0 (3 / 4)) []) = some (some (some 1)) := by
  decide +kernel

end Demo

/-- C148 does not hold if `shuffler` is given without a seed: another second, another order, other scores. -/
theorem C148_clock_refuted : ¬ ∀ (x : Experiment Unit Int Nat Nat) (gen : Int → Nat → Nat) (w w' : World), x.Dense →
    w.Positive → w'.Positive → w.draw = w'.draw → (x.run gen w []).value = (x.run gen w' []).value := by
  intro h
  have h' := h (Demo.repeated (some ⟨none, 2⟩) 0) Demo.sameNumber (Demo.callAt 0 (1 / 4)) (Demo.callAt 1 (1 / 4))
    (fun _ _ => rfl) (Demo.callAt_positive (by norm_num) (by norm_num)) (Demo.callAt_positive (by norm_num) (by norm_num)) rfl
  have h1 := Demo.repeated_clock.1
  have h2 := Demo.repeated_clock.2
  unfold Demo.printedTags at h1 h2
  rw [h', h2] at h1
  revert h1
  decide +kernel

/-- C148 does not hold with sparsification: the seeds of the run do not reach its generator. -/
theorem C148_sparse_refuted : ¬ ∀ (x : Experiment Unit Int Nat Nat) (gen : Int → Nat → Nat) (w w' : World), x.Seeded →
    (∀ p, 0 ≤ x.rate p ∧ x.rate p < 1) → w.Positive → w'.Positive → w.now = w'.now →
    (x.run gen w []).value = (x.run gen w' []).value := by
  intro h
  have h' := h (Demo.repeated none (1 / 2)) Demo.sameNumber (Demo.callAt 0 (1 / 4)) (Demo.callAt 0 (3 / 4))
    (fun _ hc => by cases hc) (fun _ => by show (0 : Rat) ≤ 1 / 2 ∧ (1 : Rat) / 2 < 1; norm_num)
    (Demo.callAt_positive (by norm_num) (by norm_num)) (Demo.callAt_positive (by norm_num) (by norm_num)) rfl
  have h1 := Demo.repeated_draws.1
  have h2 := Demo.repeated_draws.2
  unfold Demo.printedTags at h1 h2
  rw [h', h2] at h1
  revert h1
  decide +kernel

/-- With a seed the run at another time, with other numbers, is the same; it prints a score. -/
example : (Demo.repeated (some ⟨some 1, 2⟩) 0).run Demo.sameNumber (Demo.callAt 0 (1 / 4)) [] =
      (Demo.repeated (some ⟨some 1, 2⟩) 0).run Demo.sameNumber (Demo.callAt 5 (3 / 4)) [] ∧
    Demo.printedTags ((Demo.repeated (some ⟨some 1, 2⟩) 0).run Demo.sameNumber (Demo.callAt 0 (1 / 4)) []) = some (some (some 1)) :=
  ⟨C148_partial _ _ (fun c hc => by cases hc; exact Option.some_ne_none _) (fun _ _ => rfl)
    (Demo.callAt_positive (by norm_num) (by norm_num)) (Demo.callAt_positive (by norm_num) (by norm_num)) _, by decide +kernel⟩

/-- Sparsification with the same outcome. -/
example : (Demo.repeated none (1 / 2)).run Demo.sameNumber (Demo.callAt 0 (2 / 3)) [] =
    (Demo.repeated none (1 / 2)).run Demo.sameNumber (Demo.callAt 5 (3 / 4)) [] :=
  C148_draws _ _ (fun _ hc => by cases hc) (fun _ _ _ _ _ _ _ => by
    show (1 : Rat) / 2 < 2 / 3 ↔ (1 : Rat) / 2 < 3 / 4
    norm_num) _

end Verif
