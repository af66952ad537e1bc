import Verif.Model.TrainRun
import Verif.Spec.TrainRun
import Verif.Props.TrainTotal
import Verif.Proofs.Training

/-! # Proofs about a whole training run -/

namespace Verif

theorem minibatches_map {α β : Type} (g : α → β) (n : Int) (l : List α) :
    minibatches n (l.map g) = (minibatches n l).map (List.map g) := by
  have key : ∀ (l : List α) (a : List α) (out : List (List α)),
      (l.map g).foldl (minibatchStep n) (a.map g, out.map (List.map g)) =
        ((l.foldl (minibatchStep n) (a, out)).1.map g, (l.foldl (minibatchStep n) (a, out)).2.map (List.map g)) := by
    intro l
    induction l with
    | nil => intro a out; rfl
    | cons x l ih =>
      intro a out
      simp only [List.map_cons, List.foldl_cons]
      have : minibatchStep n (a.map g, out.map (List.map g)) (g x) =
          ((minibatchStep n (a, out) x).1.map g, (minibatchStep n (a, out) x).2.map (List.map g)) := by
        unfold minibatchStep
        simp only [List.length_append, List.length_map, List.length_singleton]
        split <;> simp
      rw [this]
      exact ih _ _
  unfold minibatches
  have := key l [] []
  simp only [List.map_nil] at this
  rw [this]
  simp only [List.length_map]
  split <;> simp

section
variable {F μ : Type} {lower : Str → Str} {float : Str → Res F} {zero : F} {other : TextToken} {sp : Nat → Sparsify}
  {seen : Seen} {ps : List Provider} {opt : μ → Features × Features → Rat → Res (μ × Rat)}

/-- Training on minibatches of an epoch is running the optimiser on what is extracted from them. -/
theorem batches_feed {r r' : Assembled F} {n : Nat} {docs : List Document} {lr : Rat}
    (hr : assemble lower float zero (datasetTok other docs) (sp n) seen ps = .ok r)
    (hr' : assemble lower float zero (datasetTok other docs) keepAll seen ps = .ok r') :
    ∀ (bs : List (List Obj)), (∀ b ∈ bs, b ≠ []) → ∀ (st res : μ × Rat × Nat),
    forM' (trainBatch (feedStep lower float zero other sp seen ps opt) lr) st
      (bs.map (List.map (fun o => ⟨n, docs, o⟩))) = .ok res →
    ∃ steps, mapM' (extractBatch r.features r'.labels) bs = .ok steps ∧ Optimised opt lr st.1 steps res.1 := by
  intro bs
  induction bs with
  | nil =>
    intro _ st res h
    simp only [List.map_nil, forM'] at h
    injection h with h
    subst h
    exact ⟨[], rfl, .nil _⟩
  | cons b bs ih =>
    intro hne st res h
    simp only [List.map_cons, forM'] at h
    have hb := hne b List.mem_cons_self
    cases b with
    | nil => exact absurd rfl hb
    | cons o os =>
      simp only [trainBatch, feedStep, List.map_cons, hr, hr', List.map_map, Function.comp_def, List.map_id'] at h
      cases hx : extractBatch r.features r'.labels (o :: os) with
      | error e => simp [hx] at h
      | ok step =>
        simp only [hx] at h
        cases hopt : opt st.1 step lr with
        | error e => simp [hopt] at h
        | ok p =>
          obtain ⟨m1, loss⟩ := p
          simp only [hopt] at h
          obtain ⟨steps, h1, h2⟩ := ih (fun b hb => hne b (List.mem_cons_of_mem _ hb)) _ _ h
          exact ⟨step :: steps, by simp only [mapM', hx, h1], .cons hopt h2⟩

theorem batches_total {r r' : Assembled F} {n : Nat} {docs : List Document} {lr : Rat}
    (hr : assemble lower float zero (datasetTok other docs) (sp n) seen ps = .ok r)
    (hr' : assemble lower float zero (datasetTok other docs) keepAll seen ps = .ok r') :
    ∀ (bs : List (List Obj)), (∀ b ∈ bs, b ≠ []) → ∀ steps, mapM' (extractBatch r.features r'.labels) bs = .ok steps →
    (∀ step ∈ steps, ∀ m, ∃ m' loss, opt m step lr = .ok (m', loss)) → ∀ (st : μ × Rat × Nat),
    ∃ m' loss, forM' (trainBatch (feedStep lower float zero other sp seen ps opt) lr) st
      (bs.map (List.map (fun o => ⟨n, docs, o⟩))) = .ok (m', loss, st.2.2 + bs.length) := by
  intro bs
  induction bs with
  | nil =>
    intro _ steps _ _ st
    exact ⟨_, _, rfl⟩
  | cons b bs ih =>
    intro hne steps hs hopt st
    have hb := hne b List.mem_cons_self
    cases b with
    | nil => exact absurd rfl hb
    | cons o os =>
      simp only [mapM'] at hs
      cases hx : extractBatch r.features r'.labels (o :: os) with
      | error e => simp [hx] at hs
      | ok step =>
        simp only [hx] at hs
        cases hm : mapM' (extractBatch r.features r'.labels) bs with
        | error e => simp [hm] at hs
        | ok rest =>
          simp only [hm] at hs
          injection hs with hs
          subst hs
          obtain ⟨m1, loss, h1⟩ := hopt step List.mem_cons_self st.1
          obtain ⟨m2, loss2, h2⟩ := ih (fun b hb => hne b (List.mem_cons_of_mem _ hb)) rest hm
            (fun s hs => hopt s (List.mem_cons_of_mem _ hs)) (m1, st.2.1 + loss, st.2.2 + 1)
          refine ⟨m2, loss2, ?_⟩
          simp only [List.map_cons, forM', trainBatch, feedStep, hr, hr', List.map_map, Function.comp_def, List.map_id', hx, h1]
          simp only [Function.comp_def] at h2
          rw [h2, List.length_cons]
          congr 3
          omega

theorem chunks_ne {n : Int} {l : List Obj} : ∀ b ∈ minibatches n l, b ≠ [] := by
  rintro b hb rfl
  have := ((minibatches_chunks n l).2.1 [] hb).1
  simp at this

theorem chunks_some {n : Int} {l : List Obj} (h : l ≠ []) : minibatches n l ≠ [] := by
  intro h0
  have := (minibatches_chunks n l).1
  rw [h0] at this
  exact h this.symm

/-- An epoch that succeeds is one run of the optimiser over what it is fed. -/
theorem epoch_feed {pass : Nat → List Document} {n : Nat} {size : Int} {lr : Rat} {m m' : μ} {loss : Rat}
    (h : trainEpoch (feedStep lower float zero other sp seen ps opt) size (epochSents pass n) lr m = .ok (m', loss)) :
    ∃ steps, trainingFeed lower float zero other (sp n) seen ps size (pass n) = .ok steps ∧ steps ≠ [] ∧
      Optimised opt lr m steps m' := by
  unfold trainEpoch at h
  cases hf : forM' (trainBatch (feedStep lower float zero other sp seen ps opt) lr) (m, 0, 0)
      (minibatches size (epochSents pass n)) with
  | error e => simp [hf] at h
  | ok p =>
    obtain ⟨m1, l, c⟩ := p
    have hc := (trainBatches_spec hf).1
    rw [hf] at h
    simp only at h hc
    split at h
    · cases h
    · rename_i hne
      injection h with h
      injection h with h1 h2
      subst h1
      have hs : minibatches size (sentenceObjs 0 (pass n)) ≠ [] := by
        intro h0
        rw [epochSents, minibatches_map, h0] at hc
        simp at hc
        exact hne hc
      rw [epochSents, minibatches_map] at hf
      obtain ⟨b, bs, hbs⟩ := List.exists_cons_of_ne_nil hs
      have hb : b ≠ [] := chunks_ne b (by rw [hbs]; exact List.mem_cons_self)
      obtain ⟨o, os, rfl⟩ := List.exists_cons_of_ne_nil hb
      have hok : ∃ r r', assemble lower float zero (datasetTok other (pass n)) (sp n) seen ps = .ok r ∧
          assemble lower float zero (datasetTok other (pass n)) keepAll seen ps = .ok r' := by
        rw [hbs] at hf
        simp only [List.map_cons, forM', trainBatch, feedStep] at hf
        cases h1 : assemble lower float zero (datasetTok other (pass n)) (sp n) seen ps with
        | error e => simp [h1] at hf
        | ok r =>
          cases h2 : assemble lower float zero (datasetTok other (pass n)) keepAll seen ps with
          | error e => simp [h1, h2] at hf
          | ok r' => exact ⟨r, r', rfl, rfl⟩
      obtain ⟨r, r', hr, hr'⟩ := hok
      obtain ⟨steps, g1, g2⟩ := batches_feed hr hr' _ chunks_ne _ _ hf
      refine ⟨steps, by simp only [trainingFeed, hr, hr', g1], ?_, g2⟩
      rintro rfl
      have := (mapM'_ok_iff.1 g1).length_eq
      exact hs (List.length_eq_zero_iff.1 this)

/-- An epoch whose steps can be computed and survive the optimiser succeeds. -/
theorem epoch_total {pass : Nat → List Document} {n : Nat} {size : Int} {lr : Rat} {steps : List (Features × Features)}
    (h : trainingFeed lower float zero other (sp n) seen ps size (pass n) = .ok steps)
    (hne : ∃ d ∈ pass n, d.sentences ≠ [])
    (hopt : ∀ step ∈ steps, ∀ m, ∃ m' loss, opt m step lr = .ok (m', loss)) (m : μ) :
    ∃ m' loss, trainEpoch (feedStep lower float zero other sp seen ps opt) size (epochSents pass n) lr m =
      .ok (m', loss) := by
  unfold trainingFeed at h
  cases h1 : assemble lower float zero (datasetTok other (pass n)) (sp n) seen ps with
  | error e => simp [h1] at h
  | ok r =>
    cases h2 : assemble lower float zero (datasetTok other (pass n)) keepAll seen ps with
    | error e => simp [h1, h2] at h
    | ok r' =>
      simp only [h1, h2] at h
      obtain ⟨m', loss, hf⟩ := batches_total h1 h2 _ chunks_ne steps h hopt (m, 0, 0)
      have hs : sentenceObjs 0 (pass n) ≠ [] := by
        intro h0
        have := sentenceObjs_stand (pass n)
        rw [h0] at this
        have h3 := this.length_eq
        obtain ⟨d, hd, hds⟩ := hne
        obtain ⟨s, hs⟩ := List.exists_mem_of_ne_nil _ hds
        have : (d, s) ∈ datasetSentences (pass n) := List.mem_flatMap.2 ⟨d, hd, List.mem_map.2 ⟨s, hs, rfl⟩⟩
        rw [List.length_eq_zero_iff.1 h3.symm] at this
        cases this
      have hlen : 0 + (minibatches size (sentenceObjs 0 (pass n))).length ≠ 0 := by
        rw [Nat.zero_add]
        exact fun h0 => chunks_some hs (List.length_eq_zero_iff.1 h0)
      refine ⟨m', loss / ((0 + (minibatches size (sentenceObjs 0 (pass n))).length : Nat) : Rat), ?_⟩
      unfold trainEpoch
      rw [epochSents, minibatches_map, hf]
      simp only [hlen, if_false]

end

/-! ### The loop -/

section
variable {μ σ : Type} {train : μ → List σ → Rat → Res (μ × Rat)} {cfg : TrainCfg} {dir : List Str} {sents : Nat → List σ}
  {dev : Option (Nat → List Str × μ → Res ScoreTable)} {init : μ}

/-- Where the taggers of a state come from. -/
structure AfterEpochs (train : μ → List σ → Rat → Res (μ × Rat)) (cfg : TrainCfg) (dir : List Str) (sents : Nat → List σ)
    (dev : Option (Nat → List Str × μ → Res ScoreTable)) (init : μ) (n : Nat) (st : TrainSt μ) : Prop where
  len : st.taggers.length = n
  lrs : st.taggers.length ≤ st.lrs.length
  items : ∀ test, dev = some test → st.items.length = n
  noItems : dev = none → st.items = []
  model : (init :: st.taggers.map Prod.snd)[n]? = some st.model
  chain : ∀ (i : Nat) m m', (init :: st.taggers.map Prod.snd)[i]? = some m → (st.taggers.map Prod.snd)[i]? = some m' →
    ∃ lr loss, st.lrs[i]? = some lr ∧ trainEpoch train cfg.batchSize (sents i) lr m = .ok (m', loss)
  tested : ∀ test, dev = some test → ∀ (i : Nat) t, st.taggers[i]? = some t →
    ∃ scores, test i t = .ok scores ∧ st.items[i]? = some (scores, t)

theorem trained_taggers {n : Nat} {st st' : TrainSt μ} {m' : μ} {lr loss : Rat} {t : List Str × μ}
    (h : AfterEpochs train cfg dir sents dev init n st) (ht : t.2 = m') (hl : st.lrs.length = n)
    (he : trainEpoch train cfg.batchSize (sents n) lr st.model = .ok (m', loss))
    (h1 : st'.taggers = st.taggers ++ [t]) (h2 : st'.lrs = st.lrs ++ [lr]) (h3 : st'.model = m')
    (h4 : ∀ test, dev = some test → ∃ scores, test n t = .ok scores ∧ st'.items = st.items ++ [(scores, t)])
    (h5 : dev = none → st'.items = st.items) :
    AfterEpochs train cfg dir sents dev init (n + 1) st' := by
  have hlen := h.len
  refine ⟨by rw [h1]; simp [hlen], by rw [h1, h2]; simp [hlen, hl], ?_,
    fun h0 => by rw [h5 h0, h.noItems h0], ?_, ?_, ?_⟩
  · intro test htest
    obtain ⟨scores, _, h5⟩ := h4 test htest
    rw [h5]
    simp [h.items test htest]
  · rw [h1, h3, List.getElem?_cons_succ, List.map_append, List.getElem?_append_right (by simp [hlen])]
    simp [hlen, ht]
  · intro i m m2 hi hi'
    rw [h1, List.map_append] at hi hi'
    rw [h2]
    by_cases hin : i < n
    · rw [← List.cons_append, List.getElem?_append_left (by simp [hlen]; omega)] at hi
      rw [List.getElem?_append_left (by simp [hlen]; omega)] at hi'
      obtain ⟨lr', loss', g1, g2⟩ := h.chain i m m2 hi hi'
      exact ⟨lr', loss', by rw [List.getElem?_append_left (by omega)]; exact g1, g2⟩
    · have hin' : i = n := by
        have := (List.getElem?_eq_some_iff.1 hi').1
        simp [hlen] at this
        omega
      subst hin'
      rw [← List.cons_append, List.getElem?_append_left (by simp [hlen]), h.model] at hi
      rw [List.getElem?_append_right (by simp [hlen])] at hi'
      simp [hlen] at hi'
      injection hi with hi
      subst hi
      rw [ht] at hi'
      subst hi'
      exact ⟨lr, loss, by rw [List.getElem?_append_right (by omega)]; simp [hl], he⟩
  · intro test htest i t' hi
    obtain ⟨scores, h5, h6⟩ := h4 test htest
    rw [h1] at hi
    rw [h6]
    by_cases hin : i < n
    · rw [List.getElem?_append_left (by omega)] at hi
      obtain ⟨s, g1, g2⟩ := h.tested test htest i t' hi
      exact ⟨s, g1, by rw [List.getElem?_append_left (by rw [h.items test htest]; exact hin)]; exact g2⟩
    · have hin' : i = n := by
        have := (List.getElem?_eq_some_iff.1 hi).1
        simp [hlen] at this
        omega
      subst hin'
      rw [List.getElem?_append_right (by omega)] at hi
      simp [hlen] at hi
      subst hi
      exact ⟨scores, h5, by rw [List.getElem?_append_right (by rw [h.items test htest])]; simp [h.items test htest]⟩

/-- What is known of the taggers of a state. -/
structure FromEpochs (train : μ → List σ → Rat → Res (μ × Rat)) (cfg : TrainCfg) (sents : Nat → List σ)
    (dev : Option (Nat → List Str × μ → Res ScoreTable)) (init : μ) (st : TrainSt μ) : Prop where
  chain : ∀ (i : Nat) m m', (init :: st.taggers.map Prod.snd)[i]? = some m → (st.taggers.map Prod.snd)[i]? = some m' →
    ∃ lr loss, st.lrs[i]? = some lr ∧ trainEpoch train cfg.batchSize (sents i) lr m = .ok (m', loss)
  tested : ∀ test, dev = some test → ∀ (i : Nat) t, st.taggers[i]? = some t →
    ∃ scores, test i t = .ok scores ∧ st.items[i]? = some (scores, t)
  items : ∀ (i : Nat) it, st.items[i]? = some it → st.taggers[i]? = some it.2

theorem AfterEpochs.from {n : Nat} {st : TrainSt μ} (h : AfterEpochs train cfg dir sents dev init n st) :
    FromEpochs train cfg sents dev init st := by
  refine ⟨h.chain, h.tested, fun i it hi => ?_⟩
  cases hdev : dev with
  | none =>
    rw [h.noItems hdev] at hi
    simp at hi
  | some test =>
    have hlt : i < st.taggers.length := by
      have := (List.getElem?_eq_some_iff.1 hi).1
      rw [h.items test hdev] at this
      rw [h.len]
      exact this
    obtain ⟨scores, _, h1⟩ := h.tested test hdev i _ (List.getElem?_eq_getElem hlt)
    rw [hi] at h1
    injection h1 with h1
    rw [h1]
    exact List.getElem?_eq_getElem hlt

theorem step_trained {n : Nat} {st st' : TrainSt μ} (h : AfterEpochs train cfg dir sents dev init n st) (hl : st.lrs.length = n)
    (hs : trainStep train cfg dir sents dev st n = .ok st') :
    AfterEpochs train cfg dir sents dev init (n + 1) st' ∧ st'.lrs.length = n + 1 := by
  unfold trainStep at hs
  split at hs
  · cases hs
  · rename_i lr hlr
    split at hs
    · cases hs
    · rename_i m loss hm
      split at hs
      · injection hs with hs
        subst hs
        exact ⟨trained_taggers h rfl hl hm rfl rfl rfl (fun _ h0 => by cases h0) (fun _ => rfl), by simp [TrainSt.saved, hl]⟩
      · rename_i test
        split at hs
        · cases hs
        · rename_i scores hscores
          split at hs
          · cases hs
          · injection hs with hs
            subst hs
            refine ⟨trained_taggers h rfl hl hm rfl rfl rfl (fun test' h0 => ?_) (fun h0 => by cases h0),
              by simp [TrainSt.saved, hl]⟩
            injection h0 with h0
            subst h0
            exact ⟨scores, hscores, rfl⟩

theorem step_failed {n : Nat} {st st' : TrainSt μ} {e : Err} (h : AfterEpochs train cfg dir sents dev init n st)
    (hs : trainStep train cfg dir sents dev st n = .error (st', e)) : FromEpochs train cfg sents dev init st' := by
  have h0 : FromEpochs train cfg sents dev init st := h.from
  have h1 : ∀ m lr path, FromEpochs train cfg sents dev init (st.saved m lr path) := by
    intro m lr path
    refine ⟨fun i a b ha hb => ?_, h.tested, h.from.items⟩
    obtain ⟨lr', loss, g1, g2⟩ := h.chain i a b ha hb
    refine ⟨lr', loss, ?_, g2⟩
    show (st.lrs ++ [lr])[i]? = some lr'
    rw [List.getElem?_append_left (List.getElem?_eq_some_iff.1 g1).1]
    exact g1
  unfold trainStep at hs
  repeat' split at hs
  all_goals first
    | cases hs; done
    | (injection hs with hs; injection hs with hs _; subst hs; first | exact h0 | exact h1 _ _ _)

theorem loop_models {st : TrainSt μ} {failure : Option Err} (h : trainLoop train cfg dir sents dev init = (st, failure)) :
    FromEpochs train cfg sents dev init st := by
  have key := loopUntil_inv (f := trainStep train cfg dir sents dev)
    (I := fun n st => AfterEpochs train cfg dir sents dev init n st ∧ st.lrs.length = n)
    (J := fun _ st => FromEpochs train cfg sents dev init st)
    (s₀ := { model := init, lr := cfg.initialLr, prev := List.replicate 5 0 }) (l := List.range cfg.epochs.toNat)
    ⟨⟨rfl, Nat.le_refl _, fun _ _ => rfl, fun _ => rfl, rfl, by simp, by simp⟩, rfl⟩ (by
      intro i x s s' hx hI hf
      obtain rfl : i = x := by
        have := List.getElem?_eq_some_iff.1 hx
        obtain ⟨_, h⟩ := this
        simpa using h
      exact step_trained hI.1 hI.2 hf) (by
      intro i x s s' e hx hI hf
      obtain rfl : i = x := by
        have := List.getElem?_eq_some_iff.1 hx
        obtain ⟨_, h⟩ := this
        simpa using h
      exact step_failed hI.1 hf)
  unfold trainLoop at h
  rcases key with ⟨s, h1, h2⟩ | ⟨_, s, e, _, h1, h2⟩
  · rw [h1] at h
    injection h with h _
    subst h
    exact h2.1.from
  · rw [h1] at h
    injection h with h _
    subst h
    exact h2

/-- The loop does not fail if no epoch and no test does. -/
theorem loop_total (hcfg : cfg.Divides)
    (htrain : ∀ n : Nat, n < cfg.epochs → ∀ lr m, ∃ m' loss, trainEpoch train cfg.batchSize (sents n) lr m = .ok (m', loss))
    (hdev : ∀ test, dev = some test → ∀ n : Nat, n < cfg.epochs → ∀ m, ∃ scores, test n (dir ++ [epochName n], m) = .ok scores) :
    ∃ st, trainLoop train cfg dir sents dev init = (st, none) ∧ st.taggers.length = cfg.epochs.toNat := by
  have hok : ∀ (i : Nat) (s : TrainSt μ), i < cfg.epochs → s.prev.length = 5 →
      ∃ s', trainStep train cfg dir sents dev s i = .ok s' ∧ s'.prev.length = 5 ∧ s'.taggers.length = s.taggers.length + 1 := by
    intro i s hi hprev
    obtain ⟨m, loss, hm⟩ := htrain i hi (s.lr / (1 + cfg.decay * i)) s.model
    unfold trainStep getLr
    rw [if_neg (hcfg.decay i hi)]
    simp only [hm]
    cases dev with
    | none => exact ⟨_, rfl, hprev, by simp⟩
    | some test =>
      obtain ⟨scores, hs⟩ := hdev test rfl i hi m
      have hdrop : ∃ lr', dropLr cfg.factor (s.lr / (1 + cfg.decay * i)) s.prev (devAcc scores) = .ok lr' := by
        unfold dropLr stagnates
        cases hl : s.prev.getLast? with
        | none =>
          rw [List.getLast?_eq_none_iff] at hl
          rw [hl] at hprev
          cases hprev
        | some last =>
          simp only
          split
          · rename_i h0; cases h0
          · exact ⟨_, rfl⟩
          · rw [if_neg hcfg.factor]; exact ⟨_, rfl⟩
      obtain ⟨lr', hdrop⟩ := hdrop
      simp only [hs, hdrop]
      exact ⟨_, rfl, by simp [hprev], by simp⟩
  have key := loopUntil_inv (f := trainStep train cfg dir sents dev)
    (I := fun n (st : TrainSt μ) => st.prev.length = 5 ∧ st.taggers.length = n) (J := fun _ _ => False)
    (s₀ := { model := init, lr := cfg.initialLr, prev := List.replicate 5 0 }) (l := List.range cfg.epochs.toNat)
    ⟨rfl, rfl⟩ (by
      intro i x s s' hx hI hf
      obtain ⟨hi, h⟩ := List.getElem?_eq_some_iff.1 hx
      simp only [List.length_range, List.getElem_range] at hi h
      subst h
      obtain ⟨s2, g1, g2, g3⟩ := hok i s (by omega) hI.1
      rw [g1] at hf
      injection hf with hf
      subst hf
      exact ⟨g2, by rw [g3, hI.2]⟩) (by
      intro i x s s' e hx hI hf
      obtain ⟨hi, h⟩ := List.getElem?_eq_some_iff.1 hx
      simp only [List.length_range, List.getElem_range] at hi h
      subst h
      obtain ⟨s2, g1, _⟩ := hok i s (by omega) hI.1
      rw [g1] at hf
      cases hf)
  rcases key with ⟨s, h1, h2⟩ | ⟨_, _, _, _, _, h2⟩
  · exact ⟨s, h1, by simpa using h2.2⟩
  · exact h2.elim

end

end Verif
