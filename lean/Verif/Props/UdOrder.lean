import Verif.Spec.UdOrder
import Verif.Props.UdJoin
import Mathlib.Data.List.Perm.Basic
import Mathlib.Algebra.BigOperators.Group.List.Basic

/-! # C161: the order of sentences and files does not matter for scores -/

namespace Verif

/-- What a score counts: the number of units of a treebank, and the score. -/
abbrev ScoreKind := (UD → Rat) × (Metrics → Option Score)

def plainKinds : List ScoreKind :=
  [(fun u => (u.tokens.length : Rat), fun m => some m.tokens), (fun u => (u.sentences.length : Rat), fun m => some m.sentences),
   (fun u => (u.words.length : Rat), fun m => some m.words), (fun u => (u.words.length : Rat), fun m => some m.upos),
   (fun u => (u.words.length : Rat), fun m => some m.xpos), (fun u => (u.words.length : Rat), fun m => some m.feats),
   (fun u => (u.words.length : Rat), fun m => some m.allTags), (fun u => (u.words.length : Rat), fun m => some m.lemmas),
   (fun u => (u.words.length : Rat), fun m => some m.uas), (fun u => (u.words.length : Rat), fun m => some m.las),
   (fun u => (u.words.map clasWeight).sum, fun m => some m.clas)]

def scoreKinds (weights : Option (Dict Str Rat)) : List ScoreKind :=
  plainKinds ++ (weights.toList.map (fun ws => (fun u => (u.words.map (tableWeight ws)).sum, fun m => m.weighted)))

/-- Of `t.1` gold and `t.2.1` system units, `t.2.2` are right. -/
structure Counts (k : ScoreKind) (g y : UD) (m : Metrics) (t : Rat × Rat × Rat) : Prop where
  gold : t.1 = k.1 g
  sys : t.2.1 = k.1 y
  nonneg : 0 ≤ t.2.2
  le_gold : t.2.2 ≤ t.1
  le_sys : t.2.2 ≤ t.2.1
  score : ∃ s, k.2 m = some s ∧ s.precision = ratio t.2.2 t.2.1 ∧ s.recall = ratio t.2.2 t.1 ∧
    s.f1 = ratio (2 * t.2.2) (t.1 + t.2.1)

theorem Counts.unique {k : ScoreKind} {g y : UD} {m : Metrics} {t t' : Rat × Rat × Rat} (h : Counts k g y m t)
    (h' : Counts k g y m t') : t = t' := by
  obtain ⟨s, s1, s2, _⟩ := h.score
  obtain ⟨s', s1', s2', _⟩ := h'.score
  rw [s1] at s1'
  injection s1' with s1'
  subst s1'
  have e1 := h.gold.trans h'.gold.symm
  have e2 := h.sys.trans h'.sys.symm
  obtain ⟨a, b, c⟩ := t
  obtain ⟨a', b', c'⟩ := t'
  have n1 := h.nonneg
  have n2 := h.le_sys
  have n1' := h'.nonneg
  have n2' := h'.le_sys
  simp only at *
  subst e1 e2
  refine Prod.ext rfl (Prod.ext rfl ?_)
  simp only
  rw [s2] at s2'
  unfold ratio at s2'
  by_cases hb : b = 0
  · subst hb; linarith
  · rw [if_neg hb, if_neg hb] at s2'
    exact (div_left_inj' hb).1 s2'

theorem kind_join {weights : Option (Dict Str Rat)} {k : ScoreKind} (hk : k ∈ scoreKinds weights) (a b : UD) :
    k.1 (a.join b) = k.1 a + k.1 b := by
  have hc : ∀ (f : UDWord → Rat) (n j : Nat), (∀ w : UDWord, f (w.shift n j) = f w) →
      ∀ l : List UDWord, ((l.map (UDWord.shift n j)).map f) = l.map f := by
    intro f n j hf l
    rw [List.map_map]
    exact List.map_congr_left (fun w _ => hf w)
  simp only [scoreKinds, plainKinds, List.mem_append, List.mem_cons, List.not_mem_nil, or_false, List.mem_map,
    Option.mem_toList] at hk
  rcases hk with (rfl | rfl | rfl | rfl | rfl | rfl | rfl | rfl | rfl | rfl | rfl) | ⟨ws, _, rfl⟩
  all_goals first
    | (simp only [UD.join, List.length_append, List.length_map, Nat.cast_add]; done)
    | (simp only [UD.join, List.map_append, List.sum_append]; rw [hc _ _ _ (fun _ => rfl)])

theorem counts_of_pooled {size : UD → Rat} {get : Metrics → Option Score} {g1 y1 g2 y2 : UD} {m1 m2 m : Metrics}
    {k1 k2 : Option Rat} {a b s : Score} (e1 : get m1 = some a) (e2 : get m2 = some b) (e : get m = some s)
    (hj : ∀ a b, size (UD.join a b) = size a + size b)
    (h : Pooled (size g1) (size y1) (size g2) (size y2) k1 k2 a b s) :
    ∃ t1 t2, Counts (size, get) g1 y1 m1 t1 ∧ Counts (size, get) g2 y2 m2 t2 ∧
      Counts (size, get) (g1.join g2) (y1.join y2) m (t1 + t2) := by
  obtain ⟨c1, c2, h1, h2, h3, h4, h5, h6, h7, h8, h9⟩ := h
  refine ⟨(size g1, size y1, c1), (size g2, size y2, c2), ⟨rfl, rfl, h1, h2, h3, a, e1, h7.precision, h7.recall, h7.f1⟩,
    ⟨rfl, rfl, h4, h5, h6, b, e2, h8.precision, h8.recall, h8.f1⟩, (hj _ _).symm, (hj _ _).symm, ?_, ?_, ?_, s, e, h9.precision,
    h9.recall, h9.f1⟩
  · simp only [Prod.snd_add]; linarith
  · simp only [Prod.snd_add, Prod.fst_add]; linarith
  · simp only [Prod.snd_add, Prod.fst_add]; linarith

theorem pooled_counts {weights : Option (Dict Str Rat)} {g1 y1 g2 y2 : UD} {m1 m2 m : Metrics}
    (hw : ∀ ws, weights = some ws → ∀ e ∈ ws.entries, 0 ≤ e.2) (h : PooledMetrics weights g1 y1 g2 y2 m1 m2 m) {k : ScoreKind}
    (hk : k ∈ scoreKinds weights) : ∃ t1 t2, Counts k g1 y1 m1 t1 ∧ Counts k g2 y2 m2 t2 ∧
      Counts k (g1.join g2) (y1.join y2) m (t1 + t2) := by
  have hj := kind_join hk
  obtain ⟨n1, n2, w1, w2, w3, w4, w5, w6, w7, w8⟩ := h.words
  obtain ⟨k1, k2, hcl⟩ := h.clas
  have hwords : Pooled (g1.words.length : Rat) y1.words.length g2.words.length y2.words.length none none m1.words m2.words
      m.words := ⟨n1, n2, by positivity, by exact_mod_cast w1, by exact_mod_cast w2, by positivity, by exact_mod_cast w3,
    by exact_mod_cast w4, w5, w6, w7⟩
  simp only [scoreKinds, plainKinds, List.mem_append, List.mem_cons, List.not_mem_nil, or_false, List.mem_map,
    Option.mem_toList] at hk
  rcases hk with (rfl | rfl | rfl | rfl | rfl | rfl | rfl | rfl | rfl | rfl | rfl) | ⟨ws, hws, rfl⟩
  · exact counts_of_pooled rfl rfl rfl hj h.tokens
  · exact counts_of_pooled rfl rfl rfl hj h.sentences
  · exact counts_of_pooled rfl rfl rfl hj hwords
  · exact counts_of_pooled rfl rfl rfl hj (w8 Metrics.upos (by simp))
  · exact counts_of_pooled rfl rfl rfl hj (w8 Metrics.xpos (by simp))
  · exact counts_of_pooled rfl rfl rfl hj (w8 Metrics.feats (by simp))
  · exact counts_of_pooled rfl rfl rfl hj (w8 Metrics.allTags (by simp))
  · exact counts_of_pooled rfl rfl rfl hj (w8 Metrics.lemmas (by simp))
  · exact counts_of_pooled rfl rfl rfl hj (w8 Metrics.uas (by simp))
  · exact counts_of_pooled rfl rfl rfl hj (w8 Metrics.las (by simp))
  · exact counts_of_pooled rfl rfl rfl hj hcl
  · obtain ⟨a, b, s, j1, j2, e1, e2, e3, e4⟩ := h.weighted ws hws (hw ws hws)
    exact counts_of_pooled e1 e2 e3 hj e4

section
variable {lower : Str → Str} {d : Nat} {weights : Option (Dict Str Rat)}

theorem Evaluated.same {b : Str × Str} {g y g' y' : UD} {m m' : Metrics} (h : Evaluated lower d weights b g y m)
    (h' : Evaluated lower d weights b g' y' m') : g = g' ∧ y = y' ∧ m = m' := by
  have e1 := h.gold.symm.trans h'.gold
  have e2 := h.sys.symm.trans h'.sys
  injection e1 with e1
  injection e2 with e2
  subst e1 e2
  have e3 := h.scores.symm.trans h'.scores
  injection e3 with e3
  exact ⟨rfl, rfl, e3⟩

theorem headsOk_join {a b : UD} (ha : HeadsOk a) (hb : HeadsOk b) : HeadsOk (a.join b) := by
  intro w hw
  simp only [UD.join, List.mem_append, List.mem_map] at hw
  rcases hw with hw | ⟨v, hv, rfl⟩
  · exact ha w hw
  · exact hb v hv

theorem noMulti_join {a b : UD} (ha : NoMulti a) (hb : NoMulti b) : NoMulti (a.join b) := by
  intro w hw
  simp only [UD.join, List.mem_append, List.mem_map] at hw
  rcases hw with hw | ⟨v, hv, rfl⟩
  · exact ha w hw
  · exact hb v hv

theorem joined_ends {l : List Str} (h : ∀ s ∈ l, s = [] ∨ s.getLast? = some '\n') :
    l.flatten = [] ∨ l.flatten.getLast? = some '\n' := by
  induction l with
  | nil => exact .inl rfl
  | cons s l ih =>
    have ih := ih (fun x hx => h x (by simp [hx]))
    rw [List.flatten_cons]
    rcases ih with ih | ih
    · rw [ih, List.append_nil]
      exact h s (by simp)
    · right
      rw [List.getLast?_append, ih]
      rfl

end

def emptyUD : UD := ⟨[], [], [], []⟩
theorem load_empty (d : Nat) : loadConllu d [] = .ok emptyUD := rfl
theorem f1_zero (a : Option Rat) : (Score.new 0 0 0 a).f1 = ratio (2 * 0) (0 + 0) := by simp [Score.new, ratio]
theorem evaluate_empty (lower : Str → Str) (weights : Option (Dict Str Rat)) :
    ∃ m, evaluate lower emptyUD emptyUD weights = .ok m ∧ ∀ k ∈ scoreKinds weights, Counts k emptyUD emptyUD m 0 := by
  refine ⟨_, rfl, ?_⟩
  intro k hk
  simp only [scoreKinds, plainKinds, List.mem_append, List.mem_cons, List.not_mem_nil, or_false, List.mem_map,
    Option.mem_toList] at hk
  rcases hk with (rfl | rfl | rfl | rfl | rfl | rfl | rfl | rfl | rfl | rfl | rfl) | ⟨ws, rfl, rfl⟩
  all_goals exact ⟨rfl, rfl, le_refl _, le_refl _, le_refl _, _, rfl, rfl, rfl, f1_zero _⟩

section
variable {lower : Str → Str} {d : Nat} {weights : Option (Dict Str Rat)}

theorem evaluated_join {b c : Str × Str} {g1 y1 g2 y2 : UD} {m1 m2 : Metrics}
    (h1 : Evaluated lower d weights b g1 y1 m1) (h2 : Evaluated lower d weights c g2 y2 m2)
    (hm : (NoMulti g1 ∧ NoMulti y1 ∧ NoMulti g2 ∧ NoMulti y2) ∨ TokensAgree g1 y1) :
    ∃ m, Evaluated lower d weights (b.1 ++ c.1, b.2 ++ c.2) (g1.join g2) (y1.join y2) m ∧
      PooledMetrics weights g1 y1 g2 y2 m1 m2 m := by
  have lg := C106_load h1.goldEnds h1.gold h2.gold h1.goldHeads h2.goldHeads
  have ly := C106_load h1.sysEnds h1.sys h2.sys h1.sysHeads h2.sysHeads
  obtain ⟨g, y, m, e1, e2, e3, e4⟩ := C106_partial (lower := lower) (weights := weights) h1.gold h2.gold h1.sys h2.sys
    h1.goldEnds h1.sysEnds h1.goldHeads h2.goldHeads h1.sysHeads h2.sysHeads h1.scores h2.scores (by
      rcases hm with ⟨a, b, c, e⟩ | hm
      · left
        intro w hw
        simp only [List.mem_append] at hw
        rcases hw with (hw | hw) | hw | hw
        · exact a w hw
        · exact c w hw
        · exact b w hw
        · exact e w hw
      · exact .inr hm)
  rw [lg] at e1
  rw [ly] at e2
  injection e1 with e1
  injection e2 with e2
  subst e1 e2
  have ends : ∀ s t : Str, (s = [] ∨ s.getLast? = some '\n') → (t = [] ∨ t.getLast? = some '\n') →
      s ++ t = [] ∨ (s ++ t).getLast? = some '\n' := by
    intro s t hs ht
    have := joined_ends (l := [s, t]) (by simp [hs, ht])
    simpa using this
  exact ⟨m, ⟨lg, ly, ends _ _ h1.goldEnds h2.goldEnds, ends _ _ h1.sysEnds h2.sysEnds, headsOk_join h1.goldHeads h2.goldHeads,
    headsOk_join h1.sysHeads h2.sysHeads, e3⟩, e4⟩

theorem blocks_eval (hw : ∀ ws, weights = some ws → ∀ e ∈ ws.entries, 0 ≤ e.2) {bs : List (Str × Str)}
    (hb : ∀ b ∈ bs, ∃ g y m, Evaluated lower d weights b g y m)
    (hm : (∀ b ∈ bs, ∀ g y m, Evaluated lower d weights b g y m → NoMulti g ∧ NoMulti y) ∨
      ∀ b ∈ bs, ∀ g y m, Evaluated lower d weights b g y m → TokensAgree g y) :
    ∃ g y m, Evaluated lower d weights (joined bs) g y m ∧
      ((∀ b ∈ bs, ∀ g y m, Evaluated lower d weights b g y m → NoMulti g ∧ NoMulti y) → NoMulti g ∧ NoMulti y) ∧
      ∀ k ∈ scoreKinds weights, ∃ ts, List.Forall₂ (fun b t => ∃ g y m, Evaluated lower d weights b g y m ∧ Counts k g y m t)
        bs ts ∧ Counts k g y m ts.sum := by
  induction bs with
  | nil =>
    obtain ⟨m, h1, h2⟩ := evaluate_empty lower weights
    refine ⟨emptyUD, emptyUD, m, ⟨load_empty d, load_empty d, .inl rfl, .inl rfl, ?_, ?_, h1⟩, ?_, ?_⟩
    · intro w hw; cases hw
    · intro w hw; cases hw
    · intro _
      constructor
      · intro w hw; cases hw
      · intro w hw; cases hw
    · intro k hk
      exact ⟨[], .nil, h2 k hk⟩
  | cons b bs ih =>
    obtain ⟨g2, y2, m2, r1, r2, r3⟩ := ih (fun c hc => hb c (by simp [hc])) (hm.imp (fun h c hc => h c (by simp [hc]))
      (fun h c hc => h c (by simp [hc])))
    obtain ⟨g1, y1, m1, b1⟩ := hb b (by simp)
    obtain ⟨m, e1, e2⟩ := evaluated_join b1 r1 (by
      rcases hm with hm | hm
      · have x := hm b (by simp) g1 y1 m1 b1
        have z := r2 (fun c hc => hm c (by simp [hc]))
        exact .inl ⟨x.1, x.2, z.1, z.2⟩
      · exact .inr (hm b (by simp) g1 y1 m1 b1))
    refine ⟨_, _, m, by simpa [joined] using e1, ?_, ?_⟩
    · intro h
      have x := h b (by simp) g1 y1 m1 b1
      have z := r2 (fun c hc => h c (by simp [hc]))
      exact ⟨noMulti_join x.1 z.1, noMulti_join x.2 z.2⟩
    · intro k hk
      obtain ⟨ts, t1, t2⟩ := r3 k hk
      obtain ⟨a, c, a1, a2, a3⟩ := pooled_counts hw e2 hk
      refine ⟨a :: ts, .cons ⟨g1, y1, m1, b1, a1⟩ t1, ?_⟩
      rw [List.sum_cons, ← a2.unique t2]
      exact a3

theorem weighted_none {g y : UD} {m : Metrics} (h : evaluate lower g y none = .ok m) : m.weighted = none := by
  unfold evaluate at h
  split at h
  · exact absurd h (by simp)
  · split at h
    · exact absurd h (by simp)
    · split at h
      · exact absurd h (by simp)
      · injection h with h
        rw [← h]
        rfl

/-- What holds of C161: if gold files and system files are put behind each other in another order (the same for both), the
whole can be evaluated, and precision, recall and F1 of every score are the same; there must be no multi-word tokens, or
gold and system files must have the same tokens.  (Missing: multi-word tokens in files with different tokens, for which it
is false.) -/
theorem C161_order_partial (hw : ∀ ws, weights = some ws → ∀ e ∈ ws.entries, 0 ≤ e.2) {bs bs' : List (Str × Str)}
    (hperm : bs.Perm bs') (hb : ∀ b ∈ bs, ∃ g y m, Evaluated lower d weights b g y m)
    (hm : (∀ b ∈ bs, ∀ g y m, Evaluated lower d weights b g y m → NoMulti g ∧ NoMulti y) ∨
      ∀ b ∈ bs, ∀ g y m, Evaluated lower d weights b g y m → TokensAgree g y) :
    ∃ g y m g' y' m', Evaluated lower d weights (joined bs) g y m ∧ Evaluated lower d weights (joined bs') g' y' m' ∧
      List.Forall₂ SameScore m.scores m'.scores := by
  obtain ⟨g, y, m, h1, _, h2⟩ := blocks_eval hw hb hm
  obtain ⟨g', y', m', h1', _, h2'⟩ := blocks_eval (bs := bs') hw (fun b h => hb b (hperm.mem_iff.2 h))
    (hm.imp (fun h b hb => h b (hperm.mem_iff.2 hb)) (fun h b hb => h b (hperm.mem_iff.2 hb)))
  refine ⟨g, y, m, g', y', m', h1, h1', ?_⟩
  have key : ∀ k ∈ scoreKinds weights, ∃ s s', k.2 m = some s ∧ k.2 m' = some s' ∧ SameScore s s' := by
    intro k hk
    obtain ⟨ts, t1, t2⟩ := h2 k hk
    obtain ⟨ts', t1', t2'⟩ := h2' k hk
    have hts : ts.sum = ts'.sum := by
      have hr : Relator.RightUnique (fun (b : Str × Str) t => ∃ g y m, Evaluated lower d weights b g y m ∧ Counts k g y m t) := by
        rintro b t t' ⟨a1, a2, a3, a4, a5⟩ ⟨b1, b2, b3, b4, b5⟩
        obtain ⟨rfl, rfl, rfl⟩ := a4.same b4
        exact a5.unique b5
      exact (List.rel_perm_imp hr t1 t1' hperm).sum_eq
    obtain ⟨s, s1, s2, s3, s4⟩ := t2.score
    obtain ⟨s', s1', s2', s3', s4'⟩ := t2'.score
    rw [← hts] at s2' s3' s4'
    exact ⟨s, s', s1, s1', s2.trans s2'.symm, s3.trans s3'.symm, s4.trans s4'.symm⟩
  have one : ∀ {f : UD → Rat} {sel : Metrics → Score}, ((f, fun m => some (sel m)) : ScoreKind) ∈ scoreKinds weights →
      SameScore (sel m) (sel m') := by
    intro f sel hk
    obtain ⟨s, s', e1, e2, e3⟩ := key _ hk
    injection e1 with e1
    injection e2 with e2
    subst e1 e2
    exact e3
  have mem : ∀ {k : ScoreKind}, k ∈ plainKinds → k ∈ scoreKinds weights := fun h => List.mem_append_left _ h
  have hwt : List.Forall₂ SameScore m.weighted.toList m'.weighted.toList := by
    cases hws : weights with
    | none =>
      subst hws
      rw [weighted_none h1.scores, weighted_none h1'.scores]
      exact .nil
    | some ws =>
      obtain ⟨s, s', e1, e2, e3⟩ := key (fun u => (u.words.map (tableWeight ws)).sum, fun m => m.weighted) (by
        simp [scoreKinds, hws])
      simp only at e1 e2
      rw [e1, e2]
      exact .cons e3 .nil
  unfold Metrics.scores
  refine List.rel_append ?_ hwt
  exact .cons (one (mem (List.mem_of_getElem? (i := 0) rfl))) (.cons (one (mem (List.mem_of_getElem? (i := 1) rfl))) (
    .cons (one (mem (List.mem_of_getElem? (i := 2) rfl))) (.cons (one (mem (List.mem_of_getElem? (i := 3) rfl))) (
    .cons (one (mem (List.mem_of_getElem? (i := 4) rfl))) (.cons (one (mem (List.mem_of_getElem? (i := 5) rfl))) (
    .cons (one (mem (List.mem_of_getElem? (i := 6) rfl))) (.cons (one (mem (List.mem_of_getElem? (i := 7) rfl))) (
    .cons (one (mem (List.mem_of_getElem? (i := 8) rfl))) (.cons (one (mem (List.mem_of_getElem? (i := 9) rfl))) (
    .cons (one (mem (List.mem_of_getElem? (i := 10) rfl))) (.nil)))))))))))

/-- C161 is false in general: if the system splits a word differently and has a multi-word token there, the tags of the
file behind it do not count; in the other order they do. -/
theorem C161_refuted : ∃ d b c g y m g' y' m', Evaluated id d none (joined [b, c]) g y m ∧
    Evaluated id d none (joined [c, b]) g' y' m' ∧ m.upos.f1 = 0 ∧ m'.upos.f1 = 1 / 2 := by
  have lg := C106_load (.inr (by decide +kernel)) Demo.joinGold_loads Demo.joinNext_loads Demo.joinGold_heads Demo.joinNext_heads
  have ly := C106_load (.inr (by decide +kernel)) Demo.joinSys_loads Demo.joinNext_loads Demo.joinSys_heads Demo.joinNext_heads
  have lg' := C106_load (.inr (by decide +kernel)) Demo.joinNext_loads Demo.joinGold_loads Demo.joinNext_heads Demo.joinGold_heads
  have ly' := C106_load (.inr (by decide +kernel)) Demo.joinNext_loads Demo.joinSys_loads Demo.joinNext_heads Demo.joinSys_heads
  obtain ⟨m, e⟩ := (C28_total id none ⟨_, _, lg⟩ ⟨_, _, ly⟩).1 rfl
  obtain ⟨m', e'⟩ := (C28_total id none ⟨_, _, lg'⟩ ⟨_, _, ly'⟩).1 rfl
  refine ⟨10, (Demo.joinGold, Demo.joinSys), (Demo.joinNext, Demo.joinNext), _, _, m, _, _, m',
    ⟨?_, ?_, .inr (by decide +kernel), .inr (by decide +kernel), headsOk_join Demo.joinGold_heads Demo.joinNext_heads,
      headsOk_join Demo.joinSys_heads Demo.joinNext_heads, e⟩,
    ⟨?_, ?_, .inr (by decide +kernel), .inr (by decide +kernel), headsOk_join Demo.joinNext_heads Demo.joinGold_heads,
      headsOk_join Demo.joinNext_heads Demo.joinSys_heads, e'⟩, ?_, ?_⟩
  · simpa [joined] using lg
  · simpa [joined] using ly
  · simpa [joined] using lg'
  · simpa [joined] using ly'
  · have : (evaluate id (Demo.joinGoldUd.join Demo.joinNextUd) (Demo.joinSysUd.join Demo.joinNextUd) none).map
        (fun m => m.upos.f1) = .ok 0 := by decide +kernel
    rw [e] at this
    injection this
  · have : (evaluate id (Demo.joinNextUd.join Demo.joinGoldUd) (Demo.joinNextUd.join Demo.joinSysUd) none).map
        (fun m => m.upos.f1) = .ok (1 / 2) := by decide +kernel
    rw [e'] at this
    injection this

end

/-- Both alternatives of C161: files without multi-word tokens whose words differ, and files with multi-word tokens and the
same tokens. -/
example : ((∃ m, Evaluated id 10 none (Demo.relGold, Demo.relShort) Demo.relGoldUd Demo.relShortUd m) ∧ NoMulti Demo.relGoldUd ∧
      NoMulti Demo.relShortUd) ∧
    (∃ m, Evaluated id 10 none (Demo.joinNext, Demo.joinNext) Demo.joinNextUd Demo.joinNextUd m) ∧
    TokensAgree Demo.joinNextUd Demo.joinNextUd ∧ ¬ NoMulti Demo.joinNextUd := by
  refine ⟨⟨?_, by unfold NoMulti; decide +kernel, by unfold NoMulti; decide +kernel⟩, ?_,
    ⟨rfl, by decide +kernel, by decide +kernel⟩, by unfold NoMulti; decide +kernel⟩
  · obtain ⟨m, hm⟩ := (C28_total id none Demo.relGold_loaded Demo.relShort_loaded).1 rfl
    exact ⟨m, by decide +kernel, by decide +kernel, by decide +kernel, by decide +kernel,
      Demo.headsOk_of (hs := [0, 1, 1]) (by decide +kernel) (by decide), Demo.headsOk_of (hs := [0, 1]) (by decide +kernel) (by decide),
      hm⟩
  · obtain ⟨m, hm⟩ := (C28_total id none ⟨_, _, Demo.joinNext_loads⟩ ⟨_, _, Demo.joinNext_loads⟩).1 rfl
    exact ⟨m, Demo.joinNext_loads, Demo.joinNext_loads, by decide +kernel, by decide +kernel, Demo.joinNext_heads,
      Demo.joinNext_heads, hm⟩

end Verif
