import Verif.Model.Training
import Verif.Spec.Training
import Verif.Proofs.PyLemmas
import Mathlib.Tactic.FieldSimp
import Mathlib.Tactic.Ring
import Mathlib.Tactic.Positivity
import Mathlib.Algebra.Order.Field.Rat
import Mathlib.Algebra.Order.Field.Basic

namespace Verif

/-! ### Minibatches -/

theorem minibatchFold {α : Type} (n : Int) (sents : List α) (buf : List α) (out : List (List α))
    (hb : buf = [] ∨ (buf.length : Int) < n) :
    (sents.foldl (minibatchStep n) (buf, out)).2.flatten ++
        (sents.foldl (minibatchStep n) (buf, out)).1 = out.flatten ++ buf ++ sents ∧
      ((sents.foldl (minibatchStep n) (buf, out)).1 = [] ∨
        ((sents.foldl (minibatchStep n) (buf, out)).1.length : Int) < n) ∧
      ∀ b ∈ (sents.foldl (minibatchStep n) (buf, out)).2, b ∈ out ∨ (b.length : Int) = max n 1 := by
  induction sents generalizing buf out with
  | nil => exact ⟨by simp, hb, fun b h => .inl h⟩
  | cons s sents ih =>
    simp only [List.foldl_cons]
    by_cases h : ((buf ++ [s]).length : Int) ≥ n
    · have e : minibatchStep n (buf, out) s = ([], out ++ [buf ++ [s]]) := by
        unfold minibatchStep; rw [if_pos h]
      rw [e]
      obtain ⟨h1, h2, h3⟩ := ih [] (out ++ [buf ++ [s]]) (.inl rfl)
      refine ⟨by rw [h1]; simp, h2, fun b hb' => ?_⟩
      rcases h3 b hb' with h4 | h4
      · rcases List.mem_append.mp h4 with h5 | h5
        · exact .inl h5
        · right
          rw [List.mem_singleton] at h5
          subst h5
          simp only [List.length_append, List.length_singleton] at h ⊢
          rcases hb with rfl | hb
          · simp at h ⊢; omega
          · omega
      · exact .inr h4
    · have e : minibatchStep n (buf, out) s = (buf ++ [s], out) := by
        unfold minibatchStep; rw [if_neg h]
      rw [e]
      obtain ⟨h1, h2, h3⟩ := ih (buf ++ [s]) out (.inr (by omega))
      exact ⟨by rw [h1]; simp, h2, h3⟩

theorem minibatches_chunks {α : Type} (n : Int) (sents : List α) :
    Chunks (max n 1).toNat sents (minibatches n sents) := by
  obtain ⟨h1, h2, h3⟩ := minibatchFold n sents [] [] (.inl rfl)
  unfold minibatches
  cases hst : sents.foldl (minibatchStep n) ([], []) with
  | mk rest out =>
    rw [hst] at h1 h2 h3
    simp only at h1 h2 h3 ⊢
    have h3' : ∀ b ∈ out, b.length = (max n 1).toNat := by
      intro b hb
      rcases h3 b hb with h | h
      · simp at h
      · omega
    by_cases hr : rest.length > 0
    · rw [if_pos hr]
      refine ⟨by simpa using h1, ?_, ?_⟩
      · intro b hb
        rcases List.mem_append.mp hb with hb | hb
        · have := h3' b hb; omega
        · rw [List.mem_singleton] at hb
          subst hb
          refine ⟨hr, ?_⟩
          rcases h2 with h2 | h2
          · rw [h2] at hr; simp at hr
          · omega
      · intro b hb
        rw [List.dropLast_concat] at hb
        exact h3' b hb
    · rw [if_neg hr]
      have : rest = [] := List.length_eq_zero_iff.mp (by omega)
      subst this
      refine ⟨by simpa using h1, ?_, fun b hb => h3' b (List.mem_of_mem_dropLast hb)⟩
      intro b hb
      have := h3' b hb; omega

theorem Chunks.unique {α : Type} {n : Nat} {sents : List α} {bs cs : List (List α)}
    (h1 : Chunks n sents bs) (h2 : Chunks n sents cs) : bs = cs := by
  induction bs generalizing cs sents with
  | nil =>
    obtain ⟨e, _, _⟩ := h1
    subst e
    cases cs with
    | nil => rfl
    | cons c cs =>
      have h3 := (h2.2.1 c (by simp)).1
      have h4 := h2.1
      simp only [List.flatten_cons, List.flatten_nil, List.append_eq_nil_iff] at h4
      rw [h4.1] at h3
      simp at h3
  | cons b bs ih =>
    cases cs with
    | nil =>
      have h3 := (h1.2.1 b (by simp)).1
      have h4 := h1.1.trans h2.1.symm
      simp only [List.flatten_cons, List.flatten_nil, List.append_eq_nil_iff] at h4
      rw [h4.1] at h3
      simp at h3
    | cons c cs =>
      have key : b.length = c.length := by
        have hb := h1.2.1 b (by simp)
        have hc := h2.2.1 c (by simp)
        have hlen := congrArg List.length (h1.1.trans h2.1.symm)
        simp only [List.flatten_cons, List.length_append] at hlen
        cases bs with
        | nil =>
          cases cs with
          | nil => simpa using hlen
          | cons c' cs =>
            have := h2.2.2 c (by simp [List.dropLast_cons₂])
            have h5 := (h2.2.1 c' (by simp)).1
            simp only [List.flatten_nil, List.length_nil, List.flatten_cons, List.length_append] at hlen
            omega
        | cons b' bs =>
          have hb2 := h1.2.2 b (by simp [List.dropLast_cons₂])
          cases cs with
          | nil =>
            have h5 := (h1.2.1 b' (by simp)).1
            simp only [List.flatten_nil, List.length_nil, List.flatten_cons, List.length_append] at hlen
            omega
          | cons c' cs =>
            have := h2.2.2 c (by simp [List.dropLast_cons₂])
            omega
      have hf := h1.1.trans h2.1.symm
      simp only [List.flatten_cons] at hf
      obtain ⟨e1, e2⟩ := List.append_inj hf key
      subst e1
      have tl : ∀ {ds : List (List α)}, Chunks n sents (b :: ds) → Chunks n ds.flatten ds := by
        intro ds h
        refine ⟨rfl, fun c hc => h.2.1 c (by simp [hc]), fun c hc => h.2.2 c ?_⟩
        cases ds with
        | nil => simp at hc
        | cons d ds => rw [List.dropLast_cons₂]; exact List.mem_cons_of_mem _ hc
      rw [ih (tl h1) (by rw [e2]; exact tl h2)]

/-! ### An epoch -/

theorem trainBatches_spec {μ σ : Type} {train : μ → List σ → Rat → Res (μ × Rat)} {lr : Rat}
    {batches : List (List σ)} {st r : μ × Rat × Nat}
    (h : forM' (trainBatch train lr) st batches = .ok r) :
    r.2.2 = st.2.2 + batches.length ∧
      ∃ losses : List Rat, losses.length = batches.length ∧ r.2.1 = st.2.1 + losses.sum ∧
        TrainedOn train lr st.1 batches losses r.1 := by
  induction batches generalizing st with
  | nil =>
    simp only [forM'] at h
    injection h with h
    subst h
    exact ⟨rfl, [], rfl, by simp, .nil _⟩
  | cons b bs ih =>
    simp only [forM', trainBatch] at h
    cases hb : train st.1 b lr with
    | error e => rw [hb] at h; cases h
    | ok p =>
      obtain ⟨m, l⟩ := p
      rw [hb] at h
      obtain ⟨h1, losses, h2, h3, h4⟩ := ih h
      refine ⟨by rw [h1]; simp only [List.length_cons]; omega, l :: losses, by simp [h2], ?_,
        .cons hb h4⟩
      rw [h3]; simp only [List.sum_cons]; ring

/-! ### The loop -/

theorem loopUntil_inv {σ α : Type} {f : σ → α → Except (σ × Err) σ} {I J : Nat → σ → Prop} {s₀ : σ}
    {l : List α} (h0 : I 0 s₀)
    (hs : ∀ i x s s', l[i]? = some x → I i s → f s x = .ok s' → I (i + 1) s')
    (he : ∀ i x s s' e, l[i]? = some x → I i s → f s x = .error (s', e) → J i s') :
    (∃ s, loopUntil f s₀ l = (s, none) ∧ I l.length s) ∨
      ∃ i s e, i < l.length ∧ loopUntil f s₀ l = (s, some e) ∧ J i s := by
  induction l generalizing s₀ I J with
  | nil => exact .inl ⟨s₀, rfl, h0⟩
  | cons x xs ih =>
    unfold loopUntil
    cases hx : f s₀ x with
    | error p =>
      obtain ⟨s', e⟩ := p
      exact .inr ⟨0, s', e, by simp, rfl, he 0 x s₀ s' e (by simp) h0 hx⟩
    | ok s1 =>
      rcases ih (I := fun i => I (i + 1)) (J := fun i => J (i + 1)) (hs 0 x s₀ s1 (by simp) h0 hx)
        (fun i y s s' hy => hs (i + 1) y s s' (by simpa using hy))
        (fun i y s s' e hy => he (i + 1) y s s' e (by simpa using hy)) with
        ⟨s, h1, h2⟩ | ⟨i, s, e, h1, h2, h3⟩
      · exact .inl ⟨s, h1, by simpa using h2⟩
      · exact .inr ⟨i + 1, s, e, by simpa using h1, h2, h3⟩

/-! ### Learning rate -/

theorem decayProduct_succ (decay : Rat) (n : Nat) :
    decayProduct decay (n + 1) = decayProduct decay n * (1 + decay * (n : Rat)) := by
  simp [decayProduct, List.range_succ]

theorem accBefore_snoc (accs : List Rat) (a : Rat) (k : Nat) (hk : 0 < k) (m : Nat)
    (hm : m ≤ accs.length) : accBefore (accs ++ [a]) m k = accBefore accs m k := by
  unfold accBefore
  split
  · rw [List.getElem?_append_left (by omega)]
  · rfl

theorem noProgress_snoc (accs : List Rat) (a : Rat) (m : Nat) (hm : m < accs.length) :
    NoProgress (accs ++ [a]) m ↔ NoProgress accs m := by
  unfold NoProgress
  simp only [accBefore_snoc accs a _ (by omega : 0 < 1) m (by omega),
    accBefore_snoc accs a _ (by omega : 0 < 2) m (by omega),
    accBefore_snoc accs a _ (by omega : 0 < 3) m (by omega),
    accBefore_snoc accs a _ (by omega : 0 < 4) m (by omega),
    accBefore_snoc accs a _ (by omega : 0 < 5) m (by omega), List.getElem?_append_left hm]

theorem stalls_snoc (accs : List Rat) (a : Rat) (n : Nat) (hn : n ≤ accs.length) :
    stalls (accs ++ [a]) n = stalls accs n := by
  unfold stalls
  apply List.countP_congr
  intro m hm
  rw [List.mem_range] at hm
  simpa using noProgress_snoc accs a m (by omega)

theorem stalls_succ (accs : List Rat) (n : Nat) :
    stalls accs (n + 1) = stalls accs n + if NoProgress accs n then 1 else 0 := by
  unfold stalls
  rw [List.range_succ, List.countP_append]
  simp [List.countP_cons]

/-- The five accuracies before epoch `n`. -/
def lastFive (accs : List Rat) (n : Nat) : List Rat :=
  [accBefore accs n 5, accBefore accs n 4, accBefore accs n 3, accBefore accs n 2, accBefore accs n 1]

theorem lastFive_zero (accs : List Rat) : lastFive accs 0 = List.replicate 5 0 := by
  simp [lastFive, accBefore, List.replicate]

theorem accBefore_next (accs : List Rat) (a : Rat) (k : Nat) :
    accBefore (accs ++ [a]) (accs.length + 1) (k + 2) = accBefore accs accs.length (k + 1) := by
  unfold accBefore
  have e : accs.length + 1 - (k + 2) = accs.length - (k + 1) := by omega
  by_cases h : k + 1 ≤ accs.length
  · rw [if_pos (by omega), if_pos h, e, List.getElem?_append_left (by omega)]
  · rw [if_neg (by omega), if_neg h]

theorem accBefore_last (accs : List Rat) (a : Rat) :
    accBefore (accs ++ [a]) (accs.length + 1) 1 = a := by
  simp [accBefore]

theorem lastFive_snoc (accs : List Rat) (a : Rat) :
    lastFive (accs ++ [a]) (accs.length + 1) = (lastFive accs accs.length ++ [a]).tail := by
  simp only [lastFive, accBefore_last, List.cons_append, List.tail_cons,
    List.nil_append, accBefore_next accs a 0, accBefore_next accs a 1, accBefore_next accs a 2,
    accBefore_next accs a 3]

theorem stagnates_eq (accs : List Rat) (a : Rat) :
    stagnates (lastFive accs accs.length) a =
      .ok (decide (NoProgress (accs ++ [a]) accs.length)) := by
  unfold stagnates
  have hl : (lastFive accs accs.length).getLast? = some (accBefore accs accs.length 1) := rfl
  rw [hl]
  simp only
  have hsum : (lastFive accs accs.length).sum / ((lastFive accs accs.length).length : Rat) =
      (accBefore accs accs.length 5 + accBefore accs accs.length 4 + accBefore accs accs.length 3 +
        accBefore accs accs.length 2 + accBefore accs accs.length 1) / 5 := by
    simp only [lastFive, List.sum_cons, List.sum_nil, List.length_cons, List.length_nil]
    congr 1
    ring
  rw [hsum, ← Bool.decide_and]
  congr 1
  rw [decide_eq_decide]
  unfold NoProgress
  simp only [accBefore_snoc accs a _ (by omega : 0 < 1) accs.length (le_refl _),
    accBefore_snoc accs a _ (by omega : 0 < 2) accs.length (le_refl _),
    accBefore_snoc accs a _ (by omega : 0 < 3) accs.length (le_refl _),
    accBefore_snoc accs a _ (by omega : 0 < 4) accs.length (le_refl _),
    accBefore_snoc accs a _ (by omega : 0 < 5) accs.length (le_refl _)]
  constructor
  · intro h; exact ⟨a, by simp, h⟩
  · rintro ⟨b, hb, h⟩
    simp at hb
    subst hb
    exact h

/-- Everything known after `n` complete epochs. -/
structure TrainInv {μ : Type} (cfg : TrainCfg) (dir : List Str) (dev : Bool) (n : Nat)
    (st : TrainSt μ) : Prop where
  items : st.items.length = if dev then n else 0
  itemAt : ∀ (i : Nat) (it : ScoreTable × (List Str × μ)), st.items[i]? = some it →
    it.2.1 = dir ++ [epochName i] ∧ st.taggers[i]? = some it.2
  taggers : st.taggers.length = n
  taggerAt : ∀ (i : Nat) (t : List Str × μ), st.taggers[i]? = some t → t.1 = dir ++ [epochName i]
  events : st.events = (List.range n).map (fun i => .save (dir ++ [epochName i]))
  prev : dev = true → st.prev = lastFive (st.items.map (fun it => devAcc it.1)) n
  lr : st.lr = cfg.initialLr / (decayProduct cfg.decay n *
    cfg.factor ^ stalls (st.items.map (fun it => devAcc it.1)) n)
  lrs : st.lrs.length = n
  lrAt : ∀ (i : Nat) (x : Rat), st.lrs[i]? = some x →
    x = cfg.initialLr / (decayProduct cfg.decay (i + 1) *
      cfg.factor ^ stalls (st.items.map (fun it => devAcc it.1)) i)

theorem stalls_none (n : Nat) : stalls [] n = 0 := by
  unfold stalls
  rw [List.countP_eq_zero]
  intro m _
  simp [NoProgress]

/-- What holds when epoch `n` failed. -/
structure TrainFailed {μ : Type} (cfg : TrainCfg) (dir : List Str) (n : Nat)
    (st : TrainSt μ) : Prop where
  items : st.items.length ≤ n
  itemAt : ∀ (i : Nat) (it : ScoreTable × (List Str × μ)), st.items[i]? = some it →
    it.2.1 = dir ++ [epochName i]
  events : ∃ m, n ≤ m ∧ m ≤ n + 1 ∧ st.events = (List.range m).map (fun i => .save (dir ++ [epochName i]))
  lrAt : ∀ (i : Nat) (x : Rat), st.lrs[i]? = some x →
    x = cfg.initialLr / (decayProduct cfg.decay (i + 1) *
      cfg.factor ^ stalls (st.items.map (fun it => devAcc it.1)) i)

theorem TrainInv.failed {μ : Type} {cfg : TrainCfg} {dir : List Str} {dev : Bool} {n : Nat}
    {st : TrainSt μ} (h : TrainInv cfg dir dev n st) : TrainFailed cfg dir n st where
  items := by rw [h.items]; split <;> omega
  itemAt := fun i it hi => (h.itemAt i it hi).1
  events := ⟨n, le_refl _, by omega, h.events⟩
  lrAt := h.lrAt

theorem getElem?_snoc_cases {α : Type} {l : List α} {a x : α} {i : Nat} (h : (l ++ [a])[i]? = some x) :
    (i < l.length ∧ l[i]? = some x) ∨ (i = l.length ∧ x = a) := by
  rcases Nat.lt_trichotomy i l.length with h1 | h1 | h1
  · rw [List.getElem?_append_left h1] at h; exact .inl ⟨h1, h⟩
  · subst h1; simp at h; exact .inr ⟨rfl, h.symm⟩
  · rw [List.getElem?_eq_none (by simp; omega)] at h; cases h

theorem getLr_ok {epoch : Nat} {lr decay r : Rat} (h : getLr epoch lr decay = .ok r) :
    r = lr / (1 + decay * (epoch : Rat)) := by
  unfold getLr at h
  split at h
  · cases h
  · injection h with h; exact h.symm

theorem TrainInv.lrNext {μ : Type} {cfg : TrainCfg} {dir : List Str} {dev : Bool} {n : Nat}
    {st : TrainSt μ} (h : TrainInv cfg dir dev n st) {lr : Rat}
    (hlr : getLr n st.lr cfg.decay = .ok lr) :
    lr = cfg.initialLr / (decayProduct cfg.decay (n + 1) *
      cfg.factor ^ stalls (st.items.map (fun it => devAcc it.1)) n) := by
  rw [getLr_ok hlr, h.lr, decayProduct_succ, div_div]
  congr 1
  ring

theorem TrainInv.savedFailed {μ : Type} {cfg : TrainCfg} {dir : List Str} {dev : Bool} {n : Nat}
    {st : TrainSt μ} (h : TrainInv cfg dir dev n st) {lr : Rat} (m : μ)
    (hlr : getLr n st.lr cfg.decay = .ok lr) :
    TrainFailed cfg dir n (st.saved m lr (dir ++ [epochName n])) where
  items := h.failed.items
  itemAt := h.failed.itemAt
  events := ⟨n + 1, by omega, le_refl _, by
    simp [TrainSt.saved, h.events, List.range_succ]⟩
  lrAt := by
    intro i x hx
    simp only [TrainSt.saved] at hx
    rcases getElem?_snoc_cases hx with ⟨_, h1⟩ | ⟨h1, h2⟩
    · exact h.lrAt i x h1
    · rw [h.lrs] at h1; subst h1 h2; exact h.lrNext hlr

theorem trainStep_inv {μ σ : Type} {train : μ → List σ → Rat → Res (μ × Rat)} {cfg : TrainCfg}
    {dir : List Str} {sents : Nat → List σ} {dev : Option (Nat → List Str × μ → Res ScoreTable)}
    {st : TrainSt μ} {n : Nat} (h : TrainInv cfg dir dev.isSome n st) :
    (∀ st', trainStep train cfg dir sents dev st n = .ok st' → TrainInv cfg dir dev.isSome (n + 1) st') ∧
    ∀ st' e, trainStep train cfg dir sents dev st n = .error (st', e) → TrainFailed cfg dir n st' := by
  unfold trainStep
  cases hlr : getLr n st.lr cfg.decay with
  | error e =>
    refine ⟨fun st' h' => by simp at h', fun st' e' h' => ?_⟩
    simp only [Except.error.injEq, Prod.mk.injEq] at h'
    rw [← h'.1]; exact h.failed
  | ok lr =>
    simp only
    cases ht : trainEpoch train cfg.batchSize (sents n) lr st.model with
    | error e =>
      refine ⟨fun st' h' => by simp at h', fun st' e' h' => ?_⟩
      simp only [Except.error.injEq, Prod.mk.injEq] at h'
      rw [← h'.1]; exact h.failed
    | ok p =>
      obtain ⟨m, loss⟩ := p
      simp only
      have hev : st.events ++ [.save (dir ++ [epochName n])] =
          (List.range (n + 1)).map (fun i => .save (dir ++ [epochName i])) := by
        simp [h.events, List.range_succ]
      have htg : ∀ (i : Nat) (t : List Str × μ),
          (st.taggers ++ [(dir ++ [epochName n], m)])[i]? = some t → t.1 = dir ++ [epochName i] := by
        intro i t hi
        rcases getElem?_snoc_cases hi with ⟨_, h1⟩ | ⟨h1, h2⟩
        · exact h.taggerAt i t h1
        · rw [h.taggers] at h1; subst h1 h2; rfl
      cases dev with
      | none =>
        refine ⟨fun st' h' => ?_, fun st' e' h' => by simp at h'⟩
        simp only [Except.ok.injEq] at h'
        subst h'
        have hit : st.items = [] := List.length_eq_zero_iff.mp (by simpa using h.items)
        have hlr' : lr = cfg.initialLr / (decayProduct cfg.decay (n + 1) *
            cfg.factor ^ stalls (st.items.map (fun it => devAcc it.1)) (n + 1)) := by
          have := h.lrNext hlr
          rw [hit] at this ⊢
          simpa [stalls_none] using this
        exact {
          items := by simpa [TrainSt.saved] using h.items
          itemAt := by intro i it hi; simp [TrainSt.saved, hit] at hi
          taggers := by simp [h.taggers]
          taggerAt := htg
          events := by simpa [TrainSt.saved] using hev
          prev := by simp
          lr := hlr'
          lrs := by simp [TrainSt.saved, h.lrs]
          lrAt := (h.savedFailed m hlr).lrAt }
      | some test =>
        simp only
        cases hts : test n (dir ++ [epochName n], m) with
        | error e =>
          refine ⟨fun st' h' => by simp at h', fun st' e' h' => ?_⟩
          simp only [Except.error.injEq, Prod.mk.injEq] at h'
          rw [← h'.1]; exact h.savedFailed m hlr
        | ok scores =>
          simp only
          have hil : st.items.length = n := by simpa using h.items
          have hal : (st.items.map (fun it => devAcc it.1)).length = n := by simp [hil]
          have hpr : st.prev = lastFive (st.items.map (fun it => devAcc it.1)) n := h.prev rfl
          cases hd : dropLr cfg.factor lr st.prev (devAcc scores) with
          | error e =>
            refine ⟨fun st' h' => by simp at h', fun st' e' h' => ?_⟩
            simp only [Except.error.injEq, Prod.mk.injEq] at h'
            rw [← h'.1]; exact h.savedFailed m hlr
          | ok lr' =>
            refine ⟨fun st' h' => ?_, fun st' e' h' => by simp at h'⟩
            simp only [Except.ok.injEq] at h'
            subst h'
            have hsnoc : (st.items ++ [(scores, (dir ++ [epochName n], m))]).map
                (fun it => devAcc it.1) = st.items.map (fun it => devAcc it.1) ++ [devAcc scores] := by
              simp
            refine {
              items := by simp [hil]
              itemAt := ?_
              taggers := by simp [h.taggers]
              taggerAt := htg
              events := by simpa [TrainSt.saved] using hev
              prev := ?_
              lr := ?_
              lrs := by simp [TrainSt.saved, h.lrs]
              lrAt := ?_ }
            · intro i it hi
              rcases getElem?_snoc_cases hi with ⟨h0, h1⟩ | ⟨h1, h2⟩
              · have := h.itemAt i it h1
                refine ⟨this.1, ?_⟩
                rw [List.getElem?_append_left (by rw [h.taggers]; omega)]
                exact this.2
              · rw [hil] at h1; subst h1 h2
                exact ⟨rfl, by simp [← h.taggers]⟩
            · intro _
              show (st.prev ++ [devAcc scores]).tail = lastFive (List.map _ (st.items ++ _)) (n + 1)
              rw [hsnoc, hpr]
              have := lastFive_snoc (st.items.map (fun it => devAcc it.1)) (devAcc scores)
              rw [hal] at this
              exact this.symm
            · show lr' = cfg.initialLr / (decayProduct cfg.decay (n + 1) *
                cfg.factor ^ stalls (List.map _ (st.items ++ _)) (n + 1))
              have hst := stagnates_eq (st.items.map (fun it => devAcc it.1)) (devAcc scores)
              rw [hal] at hst
              have hs1 := stalls_snoc (st.items.map (fun it => devAcc it.1)) (devAcc scores) n
                (by rw [hal])
              rw [hsnoc, stalls_succ, hs1]
              unfold dropLr at hd
              rw [hpr, hst] at hd
              have hln := h.lrNext hlr
              by_cases hnp : NoProgress (st.items.map (fun it => devAcc it.1) ++ [devAcc scores]) n
              · simp only [hnp, decide_true] at hd
                rw [if_pos hnp, pow_succ]
                split at hd
                · cases hd
                · injection hd with hd
                  rw [← hd, hln, div_div]
                  congr 1
                  ring
              · simp only [hnp, decide_false] at hd
                injection hd with hd
                rw [if_neg hnp, ← hd, hln]
                rfl
            · intro i x hx
              show x = cfg.initialLr / (decayProduct cfg.decay (i + 1) *
                cfg.factor ^ stalls (List.map _ (st.items ++ _)) i)
              have h1 := (h.savedFailed m hlr).lrAt i x hx
              have hi : i ≤ n := by
                have h2 := (List.getElem?_eq_some_iff.mp hx).1
                simp only [TrainSt.saved, List.length_append, h.lrs, List.length_singleton] at h2
                omega
              rw [hsnoc, stalls_snoc _ _ i (by rw [hal]; exact hi)]
              exact h1

theorem trainLoop_spec {μ σ : Type} (train : μ → List σ → Rat → Res (μ × Rat)) (cfg : TrainCfg)
    (dir : List Str) (sents : Nat → List σ) (dev : Option (Nat → List Str × μ → Res ScoreTable))
    (init : μ) :
    (∃ st, trainLoop train cfg dir sents dev init = (st, none) ∧
      TrainInv cfg dir dev.isSome cfg.epochs.toNat st) ∨
    ∃ n st e, n < cfg.epochs.toNat ∧ trainLoop train cfg dir sents dev init = (st, some e) ∧
      TrainFailed cfg dir n st := by
  unfold trainLoop
  have := loopUntil_inv (f := trainStep train cfg dir sents dev)
    (I := fun n st => TrainInv cfg dir dev.isSome n st) (J := fun n st => TrainFailed cfg dir n st)
    (s₀ := { model := init, lr := cfg.initialLr, prev := List.replicate 5 0 })
    (l := List.range cfg.epochs.toNat)
    { items := by simp
      itemAt := by simp
      taggers := rfl
      taggerAt := by simp
      events := by simp
      prev := fun _ => (lastFive_zero _).symm
      lr := by simp [decayProduct, stalls]
      lrs := rfl
      lrAt := by simp }
    (fun i x s s' hx h hs => by
      rw [List.getElem?_range (by simpa using (List.getElem?_eq_some_iff.mp hx).1)] at hx
      injection hx with hx; subst hx
      exact (trainStep_inv h).1 s' hs)
    (fun i x s s' e hx h hs => by
      rw [List.getElem?_range (by simpa using (List.getElem?_eq_some_iff.mp hx).1)] at hx
      injection hx with hx; subst hx
      exact (trainStep_inv h).2 s' e hs)
  simpa using this

end Verif
