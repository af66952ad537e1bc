import Verif.Spec.LongerTraining
import Verif.Props.MoreParams
import Verif.Props.PrintFields

/-! # C167: trainings with more epochs -/

namespace Verif

variable {π τ : Type}

theorem BeginsWith.refl {μ : Type} (st : TrainSt μ) : BeginsWith st st :=
  ⟨List.prefix_refl _, List.prefix_refl _, List.prefix_refl _, List.prefix_refl _⟩

theorem BeginsWith.trans {μ : Type} {a b c : TrainSt μ} (h : BeginsWith b a) (h' : BeginsWith c b) : BeginsWith c a :=
  ⟨h.1.trans h'.1, h.2.1.trans h'.2.1, h.2.2.1.trans h'.2.2.1, h.2.2.2.trans h'.2.2.2⟩

theorem loopUntil_append {σ α : Type} (f : σ → α → Except (σ × Err) σ) (s : σ) (l r : List α) :
    loopUntil f s (l ++ r) = match loopUntil f s l with
      | (s', none) => loopUntil f s' r
      | x => x := by
  induction l generalizing s with
  | nil => rfl
  | cons x l ih =>
    rw [List.cons_append, loopUntil, loopUntil]
    cases f s x with
    | error e => rfl
    | ok s' => exact ih s'

theorem trainStep_begins {μ σ : Type} (train : μ → List σ → Rat → Res (μ × Rat)) (cfg : TrainCfg)
    (dir : List Str) (sents : Nat → List σ) (dev : Option (Nat → List Str × μ → Res ScoreTable)) (st : TrainSt μ) (n : Nat) :
    (∀ st', trainStep train cfg dir sents dev st n = .ok st' → BeginsWith st' st) ∧
    ∀ st' e, trainStep train cfg dir sents dev st n = .error (st', e) → BeginsWith st' st := by
  unfold trainStep
  cases getLr n st.lr cfg.decay with
  | error e => exact ⟨fun _ h => (by cases h), fun _ _ h => by cases h; exact .refl _⟩
  | ok lr =>
    simp only
    cases trainEpoch train cfg.batchSize (sents n) lr st.model with
    | error e => exact ⟨fun _ h => (by cases h), fun _ _ h => by cases h; exact .refl _⟩
    | ok m =>
      have hs : BeginsWith (st.saved m.1 lr (dir ++ [epochName n])) st :=
        ⟨List.prefix_refl _, List.prefix_append _ _, List.prefix_append _ _, List.prefix_refl _⟩
      simp only
      cases dev with
      | none =>
        refine ⟨fun _ h => ?_, fun _ _ h => by cases h⟩
        cases h
        exact ⟨List.prefix_refl _, List.prefix_append _ _, List.prefix_append _ _, List.prefix_append _ _⟩
      | some test =>
        simp only
        cases test n (dir ++ [epochName n], m.1) with
        | error e => exact ⟨fun _ h => (by cases h), fun _ _ h => by cases h; exact hs⟩
        | ok scores =>
          simp only
          cases dropLr cfg.factor lr st.prev (devAcc scores) with
          | error e => exact ⟨fun _ h => (by cases h), fun _ _ h => by cases h; exact hs⟩
          | ok lr' =>
            refine ⟨fun _ h => ?_, fun _ _ h => by cases h⟩
            cases h
            exact ⟨List.prefix_append _ _, List.prefix_append _ _, List.prefix_append _ _, List.prefix_append _ _⟩

theorem loopUntil_begins {μ α : Type} {f : TrainSt μ → α → Except (TrainSt μ × Err) (TrainSt μ)}
    (h : ∀ st x, (∀ st', f st x = .ok st' → BeginsWith st' st) ∧ ∀ st' e, f st x = .error (st', e) → BeginsWith st' st)
    (l : List α) (st : TrainSt μ) : BeginsWith (loopUntil f st l).1 st := by
  induction l generalizing st with
  | nil => exact .refl _
  | cons x l ih =>
    rw [loopUntil]
    cases hf : f st x with
    | error e => exact (h st x).2 e.1 e.2 hf
    | ok st' => exact ((h st x).1 st' hf).trans (ih st')

/-- C167: a training with more epochs begins with the epochs of the shorter one: the same learning rates, models and scores.  If
the shorter one failed, the longer one fails in the same way. -/
theorem C167_epochs {μ σ : Type} (train : μ → List σ → Rat → Res (μ × Rat)) (cfg : TrainCfg) {more : Int} (hm : cfg.epochs ≤ more)
    (dir : List Str) (sents : Nat → List σ) (dev : Option (Nat → List Str × μ → Res ScoreTable)) (init : μ) :
    BeginsWith (trainLoop train { cfg with epochs := more } dir sents dev init).1 (trainLoop train cfg dir sents dev init).1 ∧
    ((trainLoop train cfg dir sents dev init).2 ≠ none →
      trainLoop train { cfg with epochs := more } dir sents dev init = trainLoop train cfg dir sents dev init) := by
  obtain ⟨k, hk⟩ : ∃ k, more.toNat = cfg.epochs.toNat + k := ⟨more.toNat - cfg.epochs.toNat, by omega⟩
  have e : trainLoop train { cfg with epochs := more } dir sents dev init =
      match trainLoop train cfg dir sents dev init with
      | (s', none) => loopUntil (trainStep train cfg dir sents dev) s' ((List.range k).map (cfg.epochs.toNat + ·))
      | x => x := by
    have := loopUntil_append (trainStep train cfg dir sents dev) { model := init, lr := cfg.initialLr, prev := List.replicate 5 0 }
      (List.range cfg.epochs.toNat) ((List.range k).map (cfg.epochs.toNat + ·))
    rw [← List.range_add, ← hk] at this
    have hst : trainStep train { cfg with epochs := more } dir sents dev = trainStep train cfg dir sents dev := by
      funext st n
      unfold trainStep
      rfl
    unfold trainLoop
    rw [hst]
    refine this.trans ?_
    rcases loopUntil (trainStep train cfg dir sents dev) { model := init, lr := cfg.initialLr, prev := List.replicate 5 0 }
      (List.range cfg.epochs.toNat) with ⟨s', _ | e⟩ <;> rfl
  rw [e]
  cases hs : trainLoop train cfg dir sents dev init with
  | mk st f =>
    cases f with
    | none => exact ⟨loopUntil_begins (fun st n => trainStep_begins train cfg dir sents dev st n) _ _, fun h => absurd rfl h⟩
    | some e => exact ⟨.refl _, fun _ => rfl⟩

section
variable {F μ : Type} (lower : Str → Str) (float : Str → Res F) (zero : F) (other : TextToken) (sp : Nat → Sparsify)
  (ps : List Provider)

/-- C167: the rounds of a longer training of the neural tagger, on whatever data set, begin with those of the shorter one. -/
theorem C167_rounds (iter : Nat → List Document) (pos : LeafSpec → Nat) (builds : Nat)
    (build : Dict Str Shape → Dict Str (InitRows F) → Res μ) (opt : μ → Features × Features → Rat → Res (μ × Rat))
    (cfg : TrainCfg) {more : Int} (hm : cfg.epochs ≤ more) (dir : List Str)
    (dev : Seen → Option (Nat → List Str × μ → Res ScoreTable)) (mk : List Str × μ → τ) (written : Bool) (n : Nat) :
    roundsOf mk written (neuralAt lower float zero other sp ps iter pos builds build opt cfg dir dev n) <+:
      roundsOf mk written (neuralAt lower float zero other sp ps iter pos builds build opt { cfg with epochs := more } dir dev n) := by
  unfold neuralAt neuralTrain
  cases assemble lower float zero (fun _ => other) keepAll (fun s => iter (n + pos s)) ps with
  | error e => exact List.prefix_refl _
  | ok r =>
    simp only
    cases assembleInterp lower (fun s => iter (n + pos s)) ps with
    | error e => exact List.prefix_refl _
    | ok _ =>
      simp only
      cases r.shapes with
      | error e => exact List.prefix_refl _
      | ok S =>
        simp only
        cases r.initial with
        | error e => exact List.prefix_refl _
        | ok I =>
          simp only
          cases build S I with
          | error e => exact List.prefix_refl _
          | ok init =>
            simp only
            obtain ⟨h1, h2⟩ := C167_epochs (feedStep lower float zero other sp (fun s => iter (n + pos s)) ps opt) cfg hm dir
              (epochSents fun e => iter (n + builds + e)) (dev fun s => iter (n + pos s)) init
            generalize trainLoop (feedStep lower float zero other sp (fun s => iter (n + pos s)) ps opt)
              { cfg with epochs := more } dir (epochSents fun e => iter (n + builds + e)) (dev fun s => iter (n + pos s)) init =
                long at h1 h2
            generalize trainLoop (feedStep lower float zero other sp (fun s => iter (n + pos s)) ps opt)
              cfg dir (epochSents fun e => iter (n + builds + e)) (dev fun s => iter (n + pos s)) init = short at h1 h2
            obtain ⟨st, f⟩ := short
            cases f with
            | some e => rw [h2 (by simp)]
            | none =>
              simp only [roundsOf, Option.toList_none, List.map_nil, List.append_nil]
              exact (h1.1.map _).trans (List.prefix_append _ _)

end

theorem NotWorse.trans {a : RunArgs π τ} {x y z : Option ScoreTable} (h : NotWorse a x y) (h' : NotWorse a y z) : NotWorse a x z := by
  obtain ⟨d1, d2, h1, h2, h3⟩ := h
  obtain ⟨d2', d3, h4, h5, h6⟩ := h'
  rw [h2] at h4
  cases h4
  refine ⟨d1, d3, h1, h5, ?_⟩
  rcases h3 with rfl | ⟨v, w, t1, t2, t3⟩
  · exact h6
  · rcases h6 with rfl | ⟨v', w', t1', t2', t3'⟩
    · exact .inr ⟨v, w, t1, t2, t3⟩
    · rw [t1'.unique t2] at t3'
      exact .inr ⟨v, w', t1, t2', t3.trans t3'⟩

/-- The best of more rounds is the same or at least as good. -/
theorem BestAt.longer {fields : List Str} {metric : Str} {rounds more : List (Round τ)} (hpre : rounds <+: more)
    {x y : Nat × τ × ScoreTable} (h : BestAt fields metric rounds x.1 x.2.1 x.2.2) (h' : BestAt fields metric more y.1 y.2.1 y.2.2) :
    x.2.2 = y.2.2 ∨ ∃ v w, TotalIs fields metric x.2.2 v ∧ TotalIs fields metric y.2.2 w ∧ v ≤ w := by
  obtain ⟨⟨r, h1, h2⟩, _⟩ := h
  obtain ⟨⟨r', h1', h2'⟩, h3'⟩ := h'
  have hx : more[x.1]? = some r := by
    obtain ⟨t, rfl⟩ := hpre
    rw [List.getElem?_append_left (List.getElem?_eq_some_iff.1 h1).1]
    exact h1
  by_cases he : x.1 = y.1
  · rw [he, h1'] at hx
    cases hx
    rw [h2] at h2'
    simp only [Except.ok.injEq, Prod.mk.injEq, Option.some.injEq] at h2'
    exact .inl h2'.1
  · right
    obtain ⟨o, ot, v, w, k1, k2, k3, k4, k5⟩ := h3' x.1 r hx he
    rw [h2] at k1
    simp only [Except.ok.injEq, Prod.mk.injEq, Option.some.injEq] at k1
    rw [← k1.1] at k2
    refine ⟨v, w, k2, k3, ?_⟩
    rcases Nat.lt_or_gt_of_ne he with hl | hl
    · exact le_of_lt (k4 hl)
    · exact k5 hl

/-- The number of a score, with 0 for a missing aligned accuracy. -/
def scoreVal (metric : Str) (s : Score) : Rat :=
  if metric = "precision".toList then s.precision
  else if metric = "recall".toList then s.recall
  else if metric = "f1".toList then s.f1
  else s.aligned.getD 0

/-- The total of a table, with 0 for missing numbers. -/
def tableVal (fields : List Str) (metric : Str) (t : ScoreTable) : Rat :=
  (fields.map fun f => ((t.get? f).map (scoreVal metric)).getD 0).sum

theorem AttrIs.val {metric : Str} {s : Score} {x : Rat} (h : AttrIs metric s x) : scoreVal metric s = x := by
  cases h with
  | precision => rfl
  | recall => rfl
  | f1 => rfl
  | aligned _ v hv =>
    have : scoreVal "aligned_accuracy".toList s = s.aligned.getD 0 := rfl
    rw [this, hv]
    rfl

theorem TotalIs.val {fields : List Str} {metric : Str} {t : ScoreTable} {v : Rat} (h : TotalIs fields metric t v) :
    tableVal fields metric t = v := by
  obtain ⟨vs, h, rfl⟩ := h
  unfold tableVal
  induction h with
  | nil => rfl
  | cons hx _ ih =>
    obtain ⟨s, h1, h2⟩ := hx
    simp only [List.map_cons, List.sum_cons, h1, Option.map_some, Option.getD_some, h2.val, ih]

/-- The total of the averages is the average of the totals. -/
theorem average_val {fields cmp : List Str} {metric : Str} (hn : fields.Nodup) {ts : List ScoreTable} {avg : ScoreTable}
    (h : averageScores fields (ts.map some) = .ok avg) {v : Rat} (hv : TotalIs cmp metric avg v) :
    v = mean (ts.map (tableVal cmp metric)) := by
  obtain ⟨vs, hvs, rfl⟩ := hv
  induction hvs with
  | nil =>
    have : tableVal [] metric = fun _ => 0 := rfl
    simp [this, mean]
  | cons hx _ ih =>
    rename_i f x _ _ _
    obtain ⟨s, h1, h2⟩ := hx
    have hf : f ∈ fields := by
      by_contra hf
      rw [(C52_value_partial h f).1 hf] at h1
      cases h1
    obtain ⟨values, r, g1, g2, g3, g4, g5, g6⟩ := (C52_value_partial h f).2 hf
    rw [h1] at g2
    cases g2
    have hcount : ((fields.count f : Nat) : Rat) = 1 := by
      rw [List.count_eq_one_of_mem hn hf]
      rfl
    rw [hcount, one_mul] at g3 g4 g5 g6
    have hx : x = mean (values.map (scoreVal metric)) := by
      cases h2 with
      | precision => exact g3
      | recall => exact g4
      | f1 => exact g5
      | aligned _ v hv =>
        rw [hv] at g6
        injection g6
    have hval : values.map (scoreVal metric) = ts.map fun t => ((t.get? f).map (scoreVal metric)).getD 0 := by
      clear ih h h1 h2 g3 g4 g5 g6 hx
      induction ts generalizing values with
      | nil => cases g1; rfl
      | cons t ts iht =>
        cases g1 with
        | cons e1 e2 =>
          obtain ⟨t', e3, e4⟩ := e1
          cases e3
          rw [List.map_cons, List.map_cons, iht _ e2, e4]
          rfl
    rw [List.sum_cons, ih, hx, hval]
    simp only [mean, List.length_map, ← add_div, ← List.sum_map_add, tableVal]
    rfl

theorem mean_le {l m : List Rat} (h : List.Forall₂ (· ≤ ·) l m) : mean l ≤ mean m := by
  have h1 : l.sum ≤ m.sum := by
    induction h with
    | nil => exact le_refl _
    | cons hx _ ih => simp only [List.sum_cons]; exact add_le_add hx ih
  unfold mean
  rw [h.length_eq]
  exact div_le_div_of_nonneg_right h1 (Nat.cast_nonneg _)

/-- The dev scores of a parameter set after a longer training. -/
theorem DevScores.longer {π' : Type} {a : RunArgs π τ} {b : RunArgs π' τ} (hs : b.seeds = a.seeds)
    (hp : b.printFields = a.printFields) (hf : b.cmpFields = a.cmpFields) (hm : b.cmpMetric = a.cmpMetric)
    {train : Str → π → List (Round τ)} {train' : Str → π' → List (Round τ)} {p : π} {p' : π'}
    (hpre : ∀ s ∈ a.seeds.list, train s p <+: train' s p') {t u : ScoreTable} (h : DevScores a train p t)
    (h' : DevScores b train' p' u) :
    ((∃ s, a.seeds = .one s) → NotWorse a (some t) (some u)) ∧ (a.printFields.Nodup → NotLess a (some t) (some u)) := by
  obtain ⟨sel, h1, h2⟩ := h
  obtain ⟨sel', h1', h2'⟩ := h'
  unfold SelectedFor at h1 h1'
  rw [hs, hf, hm] at h1'
  have hrel : List.Forall₂ (fun x y : Nat × τ × ScoreTable => x.2.2 = y.2.2 ∨ ∃ v w, TotalIs a.cmpFields a.cmpMetric x.2.2 v ∧
      TotalIs a.cmpFields a.cmpMetric y.2.2 w ∧ v ≤ w) sel sel' := by
    clear h2 h2'
    generalize a.seeds.list = l at h1 h1' hpre
    induction h1 generalizing sel' with
    | nil => cases h1'; exact .nil
    | cons hx _ ih =>
      cases h1' with
      | cons hy hr =>
        exact .cons (BestAt.longer (hpre _ List.mem_cons_self) hx hy) (ih _ hr (fun s hs => hpre s (List.mem_cons_of_mem _ hs)))
  unfold Together at h2 h2'
  rw [hs, hp] at h2'
  cases hseeds : a.seeds with
  | one s =>
    rw [hseeds] at h2 h2'
    simp only at h2 h2'
    have key : t = u ∨ ∃ v w, TotalIs a.cmpFields a.cmpMetric t v ∧ TotalIs a.cmpFields a.cmpMetric u w ∧ v ≤ w := by
      cases hrel with
      | nil => cases h2
      | cons hx hr =>
        cases hr with
        | cons _ _ => simp at h2
        | nil =>
          simp only [List.map_cons, List.map_nil, List.cons.injEq, and_true] at h2 h2'
          rw [← h2, ← h2']
          exact hx
    refine ⟨fun _ => ⟨t, u, rfl, rfl, key⟩, fun _ => ⟨t, u, rfl, rfl, ?_⟩⟩
    intro v w hv hw
    rcases key with rfl | ⟨v', w', k1, k2, k3⟩
    · rw [hv.unique hw]
    · rw [hv.unique k1, hw.unique k2]
      exact k3
  | many ss =>
    rw [hseeds] at h2 h2'
    simp only at h2 h2'
    refine ⟨fun ⟨s, h⟩ => (by cases h), fun hn => ⟨t, u, rfl, rfl, ?_⟩⟩
    intro v w hv hw
    rw [average_val hn h2 hv, average_val hn h2' hw]
    apply mean_le
    clear h1 h1' h2 h2'
    induction hrel with
    | nil => exact .nil
    | cons hx _ ih =>
      refine .cons ?_ ih
      simp only
      rcases hx with hx | ⟨v', w', k1, k2, k3⟩
      · rw [hx]
      · rw [k1.val, k2.val]
        exact k3

/-- C167: a run whose trainings begin with those of another run, for the same seeds and the same parameters or more, does not
report a smaller comparison score. -/
theorem C167_longer {π' : Type} (a : RunArgs π τ) (b : RunArgs π' τ) (hs : b.seeds = a.seeds) (hp : b.printFields = a.printFields)
    (hf : b.cmpFields = a.cmpFields) (hm : b.cmpMetric = a.cmpMetric) {train : Str → π → List (Round τ)}
    {train' : Str → π' → List (Round τ)} (ht : a.trainer = some train) (ht' : b.trainer = some train')
    (hne : a.printFields ≠ []) {disk disk' : List (List Str)} {fin : Final π} {fin' : Final π'}
    (h : (a.main disk).value = .ok fin) (h' : (b.main disk').value = .ok fin')
    (hin : ∀ p ∈ hyperList a.hyperparams, ∃ p' ∈ hyperList b.hyperparams, ∀ s ∈ a.seeds.list, train s p <+: train' s p') :
    ((∃ s, a.seeds = .one s) → NotWorse a fin.dev fin'.dev) ∧ (a.printFields.Nodup → NotLess a fin.dev fin'.dev) := by
  obtain ⟨i, p, sel, dev, h1, h2, h3, h4, h5, _⟩ := C103_report a disk ht hne h
  obtain ⟨j, q, sel', dev', k1, k2, k3, k4, k5, k6, _⟩ := C103_report b disk' ht' (by rw [hp]; exact hne) h'
  obtain ⟨p', hp', htr⟩ := hin p (List.mem_of_getElem? h1)
  obtain ⟨m, hm'⟩ := List.mem_iff_getElem?.1 hp'
  rw [h3, k3]
  by_cases hmj : m = j
  · subst hmj
    rw [hm'] at k1
    cases k1
    exact DevScores.longer hs hp hf hm htr ⟨sel, h4, h5⟩ ⟨sel', k4, k5⟩
  · obtain ⟨o, v, w, e1, e2, e3, e4, e5⟩ := k6 m p' hm' hmj
    obtain ⟨g1, g2⟩ := DevScores.longer hs hp hf hm htr ⟨sel, h4, h5⟩ e1
    rw [hf, hm] at e2 e3
    have hle : v ≤ w := by
      rcases Nat.lt_or_gt_of_ne hmj with hl | hl
      · exact le_of_lt (e4 hl)
      · exact e5 hl
    refine ⟨fun hone => (g1 hone).trans ⟨o, dev', rfl, rfl, .inr ⟨v, w, e2, e3, hle⟩⟩, fun hn => ?_⟩
    obtain ⟨d1, d2, x1, x2, x3⟩ := g2 hn
    cases x1
    cases x2
    refine ⟨dev, dev', rfl, rfl, ?_⟩
    intro v' w' hv hw
    rw [hw.unique e3]
    exact (x3 v' v hv e2).trans hle

/-- C167: with one seed and one parameter set, more epochs do not give a smaller comparison score, also if the data set is
shuffled. -/
theorem C167_shuffled (a : RunArgs π τ) {s : Str} (hs : a.seeds = .one s) {p : π} (hh : a.hyperparams = .inl p)
    (uses uses' : π → Nat) (trainAt trainAt' : Nat → Str → π → List (Round τ))
    (hpre : ∀ n s p, trainAt n s p <+: trainAt' n s p) (hne : a.printFields ≠ [])
    {disk disk' : List (List Str)} {fin fin' : Final (π × Nat)}
    (h : ((a.shared uses trainAt).main disk).value = .ok fin) (h' : ((a.shared uses' trainAt').main disk').value = .ok fin') :
    NotWorse a fin.dev fin'.dev := by
  refine (C167_longer (a.shared uses trainAt) (a.shared uses' trainAt') rfl rfl rfl rfl rfl rfl hne h h' ?_).1 ⟨s, hs⟩
  intro x hx
  refine ⟨x, hx, ?_⟩
  intro s' hs'
  have hx : x = (p, 0) := by
    unfold RunArgs.shared at hx
    rw [hh] at hx
    simpa [hyperList] using hx
  have hs' : s' = s := by
    have : (a.shared uses trainAt).seeds = .one s := hs
    rw [this] at hs'
    simpa [Seeds.list] using hs'
  subst hx
  subst hs'
  have e : ∀ u : π → Nat, usedBefore u (seedOrder a.seeds).length (hyperList a.hyperparams) 0 ((seedOrder a.seeds).idxOf s') = 0 := by
    intro u
    rw [hs, hh]
    simp [usedBefore, seedOrder, hyperList]
  simp only [e]
  exact hpre 0 s' p

/-- The fourth epoch is better than the first three. -/
example : ∃ fin fin', (({ Demo.run true false with hyperparams := .inl true } : RunArgs Bool Nat).main Demo.files).value = .ok fin ∧
    (({ Demo.run true false with
        hyperparams := .inl true
        trainer := (Demo.run true false).trainer.map fun train s p => train s p ++ [⟨true, true, .ok (some (Demo.tab (7 / 8)), 13)⟩] }
      : RunArgs Bool Nat).main Demo.files).value = .ok fin' ∧ fin.dev = some (Demo.tab (3 / 4)) ∧
    fin'.dev = some (Demo.tab (7 / 8)) ∧ NotLess (Demo.run true false) fin.dev fin'.dev := by
  have h1 : (({ Demo.run true false with hyperparams := .inl true } : RunArgs Bool Nat).main
      Demo.files).value.toOption.map Final.dev = some (some (Demo.tab (3 / 4))) := by decide +kernel
  have h2 : (({ Demo.run true false with
        hyperparams := .inl true
        trainer := (Demo.run true false).trainer.map fun train s p => train s p ++ [⟨true, true, .ok (some (Demo.tab (7 / 8)), 13)⟩] }
      : RunArgs Bool Nat).main Demo.files).value.toOption.map Final.dev = some (some (Demo.tab (7 / 8))) := by decide +kernel
  generalize hv : (({ Demo.run true false with hyperparams := .inl true } : RunArgs Bool Nat).main Demo.files).value = v at h1
  generalize hw : (({ Demo.run true false with
        hyperparams := .inl true
        trainer := (Demo.run true false).trainer.map fun train s p => train s p ++ [⟨true, true, .ok (some (Demo.tab (7 / 8)), 13)⟩] }
      : RunArgs Bool Nat).main Demo.files).value = w at h2
  cases v with
  | error e => cases h1
  | ok fin =>
    cases w with
    | error e => cases h2
    | ok fin' =>
      simp only [Except.toOption, Option.map_some, Option.some.injEq] at h1 h2
      refine ⟨fin, fin', rfl, rfl, h1, h2, (C167_longer ({ Demo.run true false with hyperparams := .inl true } : RunArgs Bool Nat)
        { Demo.run true false with
          hyperparams := .inl true
          trainer := (Demo.run true false).trainer.map
            fun train s p => train s p ++ [⟨true, true, .ok (some (Demo.tab (7 / 8)), 13)⟩] }
        rfl rfl rfl rfl rfl rfl (by decide) hv hw ?_).2 (by decide)⟩
      intro p hp
      exact ⟨p, hp, fun s _ => List.prefix_append _ _⟩

namespace Demo

/-- Some epochs on the shuffled letters. -/
def epochsAt (e : Int) (n : Nat) (_ : Str) (_ : Bool) : List (Round Nat) :=
  roundsOf Prod.snd true (neuralAt id float 0 (ptok 0) (fun _ => keepAll) letterProviders shuffledLetters
    (fun s => match s with
      | .trainable .. => 0
      | .lemmaDict _ => 1
      | _ => 2) 3
    (fun _ _ => .ok 0) firstWords ⟨1, 0, 1, e, 1⟩ ["m".toList]
    (fun seen => some fun _ m => testFile id 10 letterFile
      (mapM' (trainedTag id float 0 (ptok 0) seen letterProviders (if m.2 = 2 then letterNet else mixedNet)))) n)

end Demo

/-- One epoch and two epochs on a shuffled data set. -/
example : ∃ fin fin', ((({ Demo.oneParams with hyperparams := .inl true } : RunArgs Bool Nat).shared (fun _ => 4)
      (Demo.epochsAt 1)).main []).value = .ok fin ∧
    ((({ Demo.oneParams with hyperparams := .inl true } : RunArgs Bool Nat).shared (fun _ => 5)
      (Demo.epochsAt 2)).main []).value = .ok fin' ∧ NotWorse Demo.oneParams fin.dev fin'.dev := by
  have h1 : ((({ Demo.oneParams with hyperparams := .inl true } : RunArgs Bool Nat).shared (fun _ => 4)
      (Demo.epochsAt 1)).main []).value.isOk = true := by decide +kernel
  have h2 : ((({ Demo.oneParams with hyperparams := .inl true } : RunArgs Bool Nat).shared (fun _ => 5)
      (Demo.epochsAt 2)).main []).value.isOk = true := by decide +kernel
  generalize hv : ((({ Demo.oneParams with hyperparams := .inl true } : RunArgs Bool Nat).shared (fun _ => 4)
      (Demo.epochsAt 1)).main []).value = v at h1
  generalize hw : ((({ Demo.oneParams with hyperparams := .inl true } : RunArgs Bool Nat).shared (fun _ => 5)
      (Demo.epochsAt 2)).main []).value = w at h2
  cases v with
  | error e => cases h1
  | ok fin =>
    cases w with
    | error e => cases h2
    | ok fin' =>
      exact ⟨fin, fin', rfl, rfl, C167_shuffled { Demo.oneParams with hyperparams := .inl true } rfl rfl _ _ _ _
        (fun n s p => C167_rounds _ _ _ _ _ _ _ _ _ _ _ ⟨1, 0, 1, 1, 1⟩ (by decide) _ _ _ _ _) (by decide) hv hw⟩

/-- Two epochs are the first two of three. -/
example : BeginsWith (trainLoop (fun m (_ : List Nat) _ => .ok (m + 1, 1)) ⟨1, 1, 2, 3, 1⟩ [] (fun _ => [0])
      (some fun _ _ => .ok (Demo.tab 1)) 0).1
    (trainLoop (fun m (_ : List Nat) _ => .ok (m + 1, 1)) ⟨1, 1, 2, 2, 1⟩ [] (fun _ => [0])
      (some fun _ _ => .ok (Demo.tab 1)) 0).1 :=
  (C167_epochs (fun m (_ : List Nat) _ => .ok (m + 1, 1)) ⟨1, 1, 2, 2, 1⟩ (more := 3) (by decide) [] (fun _ => [0])
    (some fun _ _ => .ok (Demo.tab 1)) (0 : Nat)).1

end Verif
