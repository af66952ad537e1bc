import Verif.Proofs.Datamodel

/-! The colouring walk of `Document.__validate_syntax` accepts exactly the trees. -/

namespace Verif

theorem forM'_range_inv {σ : Type} {f : σ → Nat → Res σ} {I : Nat → σ → Prop} {n : Nat} {s₀ : σ}
    (h0 : I 0 s₀) (hs : ∀ i s s', i < n → I i s → f s i = .ok s' → I (i + 1) s') :
    ∀ s, forM' f s₀ (List.range n) = .ok s → I n s := by
  induction n with
  | zero => intro s h; simp only [List.range_zero, forM'] at h; injection h with h; exact h ▸ h0
  | succ n ih =>
    intro s h
    rw [List.range_succ, forM'_append] at h
    cases hm : forM' f s₀ (List.range n) with
    | error e => rw [hm] at h; cases h
    | ok s1 =>
      rw [hm] at h
      simp only [forM'] at h
      have h1 := ih (fun i s s' hi => hs i s s' (by omega)) s1 hm
      cases hf : f s1 n with
      | error e => rw [hf] at h; cases h
      | ok s2 =>
        rw [hf] at h
        simp only at h
        injection h with h
        exact h ▸ hs n s1 s2 (by omega) h1 hf

theorem forM'_range_ok {σ : Type} {f : σ → Nat → Res σ} {I : Nat → σ → Prop} {n : Nat} {s₀ : σ}
    (h0 : I 0 s₀) (hs : ∀ i s, i < n → I i s → ∃ s', f s i = .ok s' ∧ I (i + 1) s') :
    ∃ s, forM' f s₀ (List.range n) = .ok s ∧ I n s := by
  induction n with
  | zero => exact ⟨s₀, rfl, h0⟩
  | succ n ih =>
    obtain ⟨s1, h1, h2⟩ := ih (fun i s hi => hs i s (by omega))
    obtain ⟨s2, h3, h4⟩ := hs n s1 (by omega) h2
    refine ⟨s2, ?_, h4⟩
    rw [List.range_succ, forM'_append, h1]
    simp [forM', h3]

section
variable {toks : List Token} {s : Sentence}

/-- Following heads ends at a root or at a token without head. -/
inductive Ends (ts : List Token) : Nat → Prop
  | root {i : Nat} {t : Token} : ts[i]? = some t → t.isRoot = true → Ends ts i
  | headless {i : Nat} {t : Token} : ts[i]? = some t → t.hasHead = false → Ends ts i
  | step {i h : Nat} {t : Token} : ts[i]? = some t → t.isRoot = false →
      t.headSent = some (h : Int) → Ends ts h → Ends ts i

/-- Distance to the root. -/
inductive Depth (ts : List Token) : Nat → Nat → Prop
  | root {i : Nat} {t : Token} : ts[i]? = some t → t.isRoot = true → Depth ts i 0
  | step {i h d : Nat} {t : Token} : ts[i]? = some t → t.isRoot = false →
      t.headSent = some (h : Int) → Depth ts h d → Depth ts i (d + 1)

theorem Depth.det {ts : List Token} {i d e : Nat} (h1 : Depth ts i d) (h2 : Depth ts i e) : d = e := by
  induction h1 generalizing e with
  | root h hr =>
    cases h2 with
    | root _ _ => rfl
    | step h' hr' _ _ => rw [h] at h'; injection h' with h'; subst h'; rw [hr] at hr'; cases hr'
  | step h hr hh _ ih =>
    cases h2 with
    | root h' hr' => rw [h] at h'; injection h' with h'; subst h'; rw [hr] at hr'; cases hr'
    | step h' _ hh' hd =>
      rw [h] at h'; injection h' with h'; subst h'
      rw [hh] at hh'; injection hh' with hh'
      have : _ = _ := Int.ofNat_inj.mp hh'
      subst this
      rw [ih hd]

theorem ReachesRoot.depth {ts : List Token} {i : Nat} (h : ReachesRoot ts i) : ∃ d, Depth ts i d := by
  induction h with
  | root h hr => exact ⟨0, .root h hr⟩
  | step h hr hh _ ih =>
    obtain ⟨d, hd⟩ := ih
    exact ⟨d + 1, .step h hr hh hd⟩

theorem hasHead_of_isRoot {t : Token} (h : t.isRoot = true) : t.hasHead = true := by
  unfold Token.isRoot at h
  unfold Token.hasHead
  simp only [Bool.or_eq_true, beq_iff_eq] at h
  rcases h with h | h <;> simp [h]

theorem canon_hasHead {k : Nat} {t : Token} (hc : CanonHeads k t) (h : t.hasHead = true)
    (hr : t.isRoot = false) : ∃ a : Int, t.headSent = some a ∧ t.headDoc = some (a + k) := by
  rcases hc with ⟨h1, h2⟩ | ⟨h1, h2⟩ | h3
  · simp [Token.hasHead, h1, h2] at h
  · simp [Token.isRoot, h1, h2] at hr
  · exact h3

theorem sent_get (hstop : s.stop ≤ toks.length) {h : Nat} (hh : h < s.len) :
    ∃ t, (slice toks s.start s.stop)[h]? = some t ∧ toks[s.start + h]? = some t := by
  have hl := s.lt
  unfold Sentence.len at hh
  have : s.start + h < toks.length := by omega
  refine ⟨toks[s.start + h], ?_, List.getElem?_eq_getElem this⟩
  rw [slice_getElem?, if_pos (by omega)]
  exact List.getElem?_eq_getElem this

theorem set_mark {v : List (Option Nat)} {n i q k : Nat}
    (hq : (v.set n (some i))[q]? = some (some k)) :
    (q = n ∧ k = i) ∨ v[q]? = some (some k) := by
  rw [List.getElem?_set] at hq
  by_cases h : n = q
  · rw [if_pos h] at hq
    by_cases h2 : n < v.length
    · rw [if_pos h2] at hq
      injection hq with hq
      injection hq with hq
      exact .inl ⟨h.symm, hq.symm⟩
    · rw [if_neg h2] at hq; cases hq
  · rw [if_neg h] at hq
    exact .inr hq

theorem walk_sound (hstop : s.stop ≤ toks.length)
    (hcan : ∀ t ∈ slice toks s.start s.stop, CanonHeads s.start t) (i : Nat) :
    ∀ (fuel : Nat) (visited v' : List (Option Nat)) (p : Nat) (t : Token),
      (slice toks s.start s.stop)[p]? = some t → visited.length = s.len →
      validateWalk toks s.len i fuel visited t = .ok v' →
      (∀ q k : Nat, visited[q]? = some (some k) → k ≠ i → Ends (slice toks s.start s.stop) q) →
      Ends (slice toks s.start s.stop) p ∧ v'.length = s.len ∧
      (∀ q k : Nat, visited[q]? = some (some k) → v'[q]? = some (some k)) ∧
      (∀ q k : Nat, v'[q]? = some (some k) →
        visited[q]? = some (some k) ∨ (k = i ∧ Ends (slice toks s.start s.stop) q)) := by
  intro fuel
  induction fuel with
  | zero => intro visited v' p t _ _ h; simp [validateWalk] at h
  | succ fuel ih =>
    intro visited v' p t hp hlen h hmarks
    simp only [validateWalk] at h
    by_cases hc : (t.hasHead && !t.isRoot) = true
    swap
    · rw [if_neg hc] at h
      injection h with h; subst h
      refine ⟨?_, hlen, fun _ _ h => h, fun _ _ h => .inl h⟩
      simp only [Bool.and_eq_true, Bool.not_eq_true', not_and, Bool.not_eq_false] at hc
      by_cases hh : t.hasHead = true
      · exact .root hp (hc hh)
      · exact .headless hp (by simpa using hh)
    rw [if_pos hc] at h
    simp only [Bool.and_eq_true, Bool.not_eq_true'] at hc
    have hmem : t ∈ slice toks s.start s.stop := List.mem_of_getElem? hp
    obtain ⟨a, ha1, ha2⟩ := canon_hasHead (hcan t hmem) hc.1 hc.2
    simp only [ha1, ha2] at h
    by_cases hr : a < 0 ∨ a ≥ (s.len : Int)
    · rw [if_pos hr] at h; cases h
    rw [if_neg hr] at h
    simp only [not_or] at hr
    obtain ⟨n, rfl⟩ : ∃ n : Nat, a = n := ⟨a.toNat, by omega⟩
    simp only [Int.toNat_natCast] at h
    have hn : n < s.len := by omega
    have hnv : n < visited.length := by omega
    obtain ⟨tn, htn1, htn2⟩ := sent_get hstop hn
    have e : ((n : Int) + (s.start : Int)) = ((s.start + n : Nat) : Int) := by push_cast; omega
    rw [e] at h
    rw [pyGet_nat_ok.mpr htn2] at h
    rw [List.getElem?_eq_getElem hnv] at h
    cases hv : visited[n] with
    | none =>
      rw [hv] at h
      simp only at h
      have hset : ∀ q k : Nat, (visited.set n (some i))[q]? = some (some k) →
          (q = n ∧ k = i) ∨ visited[q]? = some (some k) := by
        intro q k hq
        exact set_mark hq
      obtain ⟨h1, h2, h3, h4⟩ := ih (visited.set n (some i)) v' n tn htn1 (by simpa using hlen) h
        (fun q k hq hk => by
          rcases hset q k hq with ⟨_, h⟩ | h
          · exact absurd h hk
          · exact hmarks q k h hk)
      refine ⟨.step hp hc.2 ha1 h1, h2, ?_, ?_⟩
      · intro q k hq
        apply h3
        rw [List.getElem?_set]
        split
        · rename_i hq'
          subst hq'
          rw [List.getElem?_eq_getElem hnv, hv] at hq
          cases hq
        · exact hq
      · intro q k hq
        rcases h4 q k hq with h5 | h5
        · rcases hset q k h5 with ⟨rfl, rfl⟩ | h6
          · exact .inr ⟨rfl, h1⟩
          · exact .inl h6
        · exact .inr h5
    | some j =>
      rw [hv] at h
      simp only at h
      split at h
      · cases h
      · rename_i hji
        injection h with h; subst h
        refine ⟨.step hp hc.2 ha1 (hmarks n j ?_ hji), hlen, fun _ _ h => h, fun _ _ h => .inl h⟩
        rw [List.getElem?_eq_getElem hnv, hv]

/-- Invariant of the outer loop: state after `i` iterations. -/
structure VInv (ts : List Token) (n i : Nat) (st : Bool × List (Option Nat)) : Prop where
  len : st.2.length = n
  marks : ∀ q k : Nat, st.2[q]? = some (some k) → k < i ∧ Ends ts q
  seen : ∀ j < i, (∃ t, ts[j]? = some t ∧ t.hasHead = true) ∧ ∃ k, st.2[j]? = some (some k)
  flag : st.1 = false → ∀ j t, j < i → ts[j]? = some t → t.isRoot = false
  uniq : ∀ j j' t t', j < i → j' < i → ts[j]? = some t → ts[j']? = some t' → t.isRoot = true →
    t'.isRoot = true → j = j'

theorem validateStep_sound (hstop : s.stop ≤ toks.length)
    (hcan : ∀ t ∈ slice toks s.start s.stop, CanonHeads s.start t) (i : Nat)
    (st st' : Bool × List (Option Nat)) (hi : i < s.len)
    (hinv : VInv (slice toks s.start s.stop) s.len i st) (h : validateStep toks s st i = .ok st') :
    VInv (slice toks s.start s.stop) s.len (i + 1) st' := by
  obtain ⟨t, ht1, ht2⟩ := sent_get hstop hi
  have hiv : i < st.2.length := by rw [hinv.len]; exact hi
  unfold validateStep at h
  rw [pyGet_nat_ok.mpr ht2] at h
  simp only at h
  by_cases hh : t.hasHead = true
  swap
  · simp [hh] at h
  simp only [hh, Bool.not_true, Bool.false_eq_true, if_false] at h
  by_cases hr : t.isRoot = true
  · simp only [hr, if_true] at h
    by_cases hf : st.1 = true
    · simp [hf] at h
    simp only [hf, Bool.false_eq_true, if_false] at h
    simp only [Bool.not_eq_true] at hf
    rw [List.getElem?_eq_getElem hiv] at h
    have huniq : ∀ j j' t t', j < i + 1 → j' < i + 1 → (slice toks s.start s.stop)[j]? = some t →
        (slice toks s.start s.stop)[j']? = some t' → t.isRoot = true → t'.isRoot = true → j = j' := by
      intro j j' t1 t2 hj hj' h1 h2 h3 h4
      have a1 : j = i := by
        rcases Nat.lt_succ_iff_lt_or_eq.mp hj with hj | hj
        · rw [hinv.flag hf j t1 hj h1] at h3; cases h3
        · exact hj
      have a2 : j' = i := by
        rcases Nat.lt_succ_iff_lt_or_eq.mp hj' with hj | hj
        · rw [hinv.flag hf j' t2 hj h2] at h4; cases h4
        · exact hj
      rw [a1, a2]
    cases hv : st.2[i] with
    | none =>
      rw [hv] at h
      simp only at h
      injection h with h; subst h
      refine ⟨by simpa using hinv.len, ?_, ?_, by simp, huniq⟩
      · intro q k hq
        rcases set_mark hq with ⟨rfl, rfl⟩ | hq
        · exact ⟨by omega, .root ht1 hr⟩
        · have := hinv.marks q k hq
          exact ⟨by omega, this.2⟩
      · intro j hj
        rcases Nat.lt_succ_iff_lt_or_eq.mp hj with hj | rfl
        · obtain ⟨h1, k, h2⟩ := hinv.seen j hj
          refine ⟨h1, k, ?_⟩
          simp only [List.getElem?_set]
          rw [if_neg (by omega)]
          exact h2
        · refine ⟨⟨t, ht1, hh⟩, j, ?_⟩
          simp [hiv]
    | some k0 =>
      rw [hv] at h
      simp only at h
      injection h with h; subst h
      refine ⟨hinv.len, ?_, ?_, by simp, huniq⟩
      · intro q k hq
        have := hinv.marks q k hq
        exact ⟨by omega, this.2⟩
      · intro j hj
        rcases Nat.lt_succ_iff_lt_or_eq.mp hj with hj | rfl
        · exact hinv.seen j hj
        · exact ⟨⟨t, ht1, hh⟩, k0, by rw [List.getElem?_eq_getElem hiv, hv]⟩
  · simp only [hr, Bool.false_eq_true, if_false] at h
    simp only [Bool.not_eq_true] at hr
    rw [List.getElem?_eq_getElem hiv] at h
    have hflag : st.1 = false → ∀ j t, j < i + 1 → (slice toks s.start s.stop)[j]? = some t →
        t.isRoot = false := by
      intro hf j t1 hj h1
      rcases Nat.lt_succ_iff_lt_or_eq.mp hj with hj | rfl
      · exact hinv.flag hf j t1 hj h1
      · rw [ht1] at h1; injection h1 with h1; subst h1; exact hr
    have huniq : ∀ j j' t t', j < i + 1 → j' < i + 1 → (slice toks s.start s.stop)[j]? = some t →
        (slice toks s.start s.stop)[j']? = some t' → t.isRoot = true → t'.isRoot = true → j = j' := by
      intro j j' t1 t2 hj hj' h1 h2 h3 h4
      have a1 : j < i := by
        rcases Nat.lt_succ_iff_lt_or_eq.mp hj with hj | rfl
        · exact hj
        · rw [ht1] at h1; injection h1 with h1; subst h1; rw [hr] at h3; cases h3
      have a2 : j' < i := by
        rcases Nat.lt_succ_iff_lt_or_eq.mp hj' with hj | rfl
        · exact hj
        · rw [ht1] at h2; injection h2 with h2; subst h2; rw [hr] at h4; cases h4
      exact hinv.uniq j j' t1 t2 a1 a2 h1 h2 h3 h4
    cases hv : st.2[i] with
    | some k0 =>
      rw [hv] at h
      simp only at h
      injection h with h; subst h
      refine ⟨hinv.len, ?_, ?_, hflag, huniq⟩
      · intro q k hq
        have := hinv.marks q k hq
        exact ⟨by omega, this.2⟩
      · intro j hj
        rcases Nat.lt_succ_iff_lt_or_eq.mp hj with hj | rfl
        · exact hinv.seen j hj
        · exact ⟨⟨t, ht1, hh⟩, k0, by rw [List.getElem?_eq_getElem hiv, hv]⟩
    | none =>
      rw [hv] at h
      simp only at h
      cases hw : validateWalk toks s.len i (s.len + 1) (st.2.set i (some i)) t with
      | error e => rw [hw] at h; cases h
      | ok v =>
        rw [hw] at h
        simp only at h
        injection h with h; subst h
        have hset : ∀ q k : Nat, (st.2.set i (some i))[q]? = some (some k) →
            (q = i ∧ k = i) ∨ st.2[q]? = some (some k) := by
          intro q k hq
          exact set_mark hq
        obtain ⟨h1, h2, h3, h4⟩ := walk_sound hstop hcan i _ _ v i t ht1 (by simpa using hinv.len) hw
          (fun q k hq hk => by
            rcases hset q k hq with ⟨_, h⟩ | h
            · exact absurd h hk
            · exact (hinv.marks q k h).2)
        refine ⟨h2, ?_, ?_, hflag, huniq⟩
        · intro q k hq
          rcases h4 q k hq with h5 | ⟨rfl, h5⟩
          · rcases hset q k h5 with ⟨rfl, rfl⟩ | h6
            · exact ⟨by omega, h1⟩
            · have := hinv.marks q k h6
              exact ⟨by omega, this.2⟩
          · exact ⟨by omega, h5⟩
        · intro j hj
          rcases Nat.lt_succ_iff_lt_or_eq.mp hj with hj | rfl
          · obtain ⟨h5, k, h6⟩ := hinv.seen j hj
            refine ⟨h5, k, h3 j k ?_⟩
            rw [List.getElem?_set, if_neg (by omega)]
            exact h6
          · refine ⟨⟨t, ht1, hh⟩, j, h3 j j ?_⟩
            simp [hiv]

theorem Ends.reaches {ts : List Token} (hall : ∀ (i : Nat) (t : Token), ts[i]? = some t → t.hasHead = true) {i : Nat}
    (h : Ends ts i) : ReachesRoot ts i := by
  induction h with
  | root h hr => exact .root h hr
  | headless h hh => rw [hall _ _ h] at hh; cases hh
  | step h hr hh _ ih => exact .step h hr hh ih

theorem ReachesRoot.exists_root {ts : List Token} {i : Nat} (h : ReachesRoot ts i) :
    ∃ (j : Nat) (t : Token), ts[j]? = some t ∧ t.isRoot = true := by
  induction h with
  | root h hr => exact ⟨_, _, h, hr⟩
  | step _ _ _ _ ih => exact ih

theorem slice_len (hstop : s.stop ≤ toks.length) : (slice toks s.start s.stop).length = s.len := by
  rw [slice_length]; unfold Sentence.len; omega

theorem validate_sound (hstop : s.stop ≤ toks.length)
    (hcan : ∀ t ∈ slice toks s.start s.stop, CanonHeads s.start t) {st : Bool × List (Option Nat)}
    (h : forM' (validateStep toks s) (false, List.replicate s.len none) (List.range s.len) = .ok st) :
    IsTree (slice toks s.start s.stop) := by
  have hinv := forM'_range_inv (I := VInv (slice toks s.start s.stop) s.len)
    ⟨by simp, by
      intro q k hq
      simp only [List.getElem?_replicate] at hq
      split at hq <;> simp at hq, by simp, by simp, by simp⟩
    (fun i st st' hi => validateStep_sound hstop hcan i st st' hi) st h
  have hlen := slice_len hstop
  have hall : ∀ (i : Nat) (t : Token), (slice toks s.start s.stop)[i]? = some t → t.hasHead = true := by
    intro i t hi
    have : i < s.len := by
      rw [← hlen]; exact (List.getElem?_eq_some_iff.mp hi).1
    obtain ⟨⟨t', h1, h2⟩, _⟩ := hinv.seen i this
    rw [hi] at h1; injection h1 with h1; rw [h1]; exact h2
  have hreach : ∀ i < (slice toks s.start s.stop).length, ReachesRoot (slice toks s.start s.stop) i := by
    intro i hi
    rw [hlen] at hi
    obtain ⟨_, k, hk⟩ := hinv.seen i hi
    exact (hinv.marks i k hk).2.reaches hall
  refine ⟨?_, hreach⟩
  obtain ⟨j, t, hj, hr⟩ := (hreach 0 (by have := s.lt; rw [hlen]; unfold Sentence.len; omega)).exists_root
  refine ⟨j, ⟨t, hj, hr⟩, ?_⟩
  rintro j' ⟨t', hj', hr'⟩
  have b1 : j < s.len := by rw [← hlen]; exact (List.getElem?_eq_some_iff.mp hj).1
  have b2 : j' < s.len := by rw [← hlen]; exact (List.getElem?_eq_some_iff.mp hj').1
  exact hinv.uniq j' j t' t b2 b1 hj' hj hr' hr

theorem count_set_lt {v : List (Option Nat)} {n : Nat} {i : Nat} (h : v[n]? = some none) :
    (v.set n (some i)).count none < v.count none := by
  induction v generalizing n with
  | nil => simp at h
  | cons a v ih =>
    cases n with
    | zero =>
      simp only [List.getElem?_cons_zero, Option.some.injEq] at h
      subst h
      simp
    | succ n =>
      simp only [List.getElem?_cons_succ] at h
      have := ih h
      simp only [List.set_cons_succ, List.count_cons]
      omega

theorem walk_complete (hstop : s.stop ≤ toks.length)
    (hcan : ∀ t ∈ slice toks s.start s.stop, CanonHeads s.start t) (i : Nat) :
    ∀ (fuel : Nat) (visited : List (Option Nat)) (p d : Nat) (t : Token),
      (slice toks s.start s.stop)[p]? = some t → visited.length = s.len →
      Depth (slice toks s.start s.stop) p d → visited.count none < fuel →
      (∀ q e : Nat, visited[q]? = some (some i) → Depth (slice toks s.start s.stop) q e → d ≤ e) →
      ∃ v', validateWalk toks s.len i fuel visited t = .ok v' ∧ v'.length = s.len ∧
        ∀ q k : Nat, v'[q]? = some (some k) → visited[q]? = some (some k) ∨ k = i := by
  intro fuel
  induction fuel with
  | zero => intro visited p d t _ _ _ h; omega
  | succ fuel ih =>
    intro visited p d t hp hlen hd hfuel hmarks
    simp only [validateWalk]
    cases hd with
    | root hp' hr =>
      rw [hp] at hp'; injection hp' with hp'; subst hp'
      simp only [hr, Bool.not_true, Bool.and_false, Bool.false_eq_true, if_false]
      exact ⟨visited, rfl, hlen, fun _ _ h => .inl h⟩
    | @step _ h d' _ hp' hr hhs hdh =>
      rw [hp] at hp'; injection hp' with hp'; subst hp'
      have hh : t.hasHead = true := by simp [Token.hasHead, hhs]
      have hmem : t ∈ slice toks s.start s.stop := List.mem_of_getElem? hp
      obtain ⟨a, ha1, ha2⟩ := canon_hasHead (hcan t hmem) hh hr
      rw [hhs] at ha1
      injection ha1 with ha1
      subst ha1
      simp only [hh, hr, Bool.not_false, Bool.and_self, if_true, hhs, ha2]
      have hlt : h < s.len := by
        rw [← slice_len hstop]
        cases hdh with
        | root hx _ => exact (List.getElem?_eq_some_iff.mp hx).1
        | step hx _ _ _ => exact (List.getElem?_eq_some_iff.mp hx).1
      rw [if_neg (by omega)]
      simp only [Int.toNat_natCast]
      have hhv : h < visited.length := by omega
      obtain ⟨tn, htn1, htn2⟩ := sent_get hstop hlt
      have e : ((h : Int) + (s.start : Int)) = ((s.start + h : Nat) : Int) := by push_cast; omega
      rw [e, pyGet_nat_ok.mpr htn2, List.getElem?_eq_getElem hhv]
      cases hv : visited[h] with
      | none =>
        simp only
        have hset : ∀ q k : Nat, (visited.set h (some i))[q]? = some (some k) →
            (q = h ∧ k = i) ∨ visited[q]? = some (some k) := by
          intro q k hq
          exact set_mark hq
        have hn : visited[h]? = some none := by rw [List.getElem?_eq_getElem hhv, hv]
        have := count_set_lt (i := i) hn
        obtain ⟨v', h1, h2, h3⟩ := ih (visited.set h (some i)) h d' tn htn1 (by simpa using hlen) hdh
          (by omega) (fun q e hq hqe => by
            rcases hset q i hq with ⟨rfl, _⟩ | h5
            · exact le_of_eq (hdh.det hqe)
            · have := hmarks q e h5 hqe; omega)
        refine ⟨v', h1, h2, ?_⟩
        intro q k hq
        rcases h3 q k hq with h4 | h4
        · rcases hset q k h4 with ⟨_, h5⟩ | h5
          · exact .inr h5
          · exact .inl h5
        · exact .inr h4
      | some j =>
        simp only
        by_cases hji : j = i
        · subst hji
          have := hmarks h d' (by rw [List.getElem?_eq_getElem hhv, hv]) hdh
          omega
        · rw [if_neg hji]
          exact ⟨visited, rfl, hlen, fun _ _ h => .inl h⟩

theorem validate_complete (hstop : s.stop ≤ toks.length)
    (hcan : ∀ t ∈ slice toks s.start s.stop, CanonHeads s.start t)
    (htree : IsTree (slice toks s.start s.stop)) :
    ∃ st, forM' (validateStep toks s) (false, List.replicate s.len none) (List.range s.len) = .ok st := by
  have hlen := slice_len hstop
  obtain ⟨huniq, hreach⟩ := htree
  have := forM'_range_ok (f := validateStep toks s) (n := s.len)
    (s₀ := (false, List.replicate s.len none))
    (I := fun i st => st.2.length = s.len ∧ (∀ q k : Nat, st.2[q]? = some (some k) → k < i) ∧
      (st.1 = true → ∃ (j : Nat) (t : Token), j < i ∧ (slice toks s.start s.stop)[j]? = some t ∧ t.isRoot = true))
    ⟨by simp, by
      intro q k hq
      simp only [List.getElem?_replicate] at hq
      split at hq <;> simp at hq, by simp⟩ ?_
  · obtain ⟨st, h, _⟩ := this
    exact ⟨st, h⟩
  rintro i ⟨r, v⟩ hi ⟨hl, hm, hf⟩
  simp only at hl hm hf
  obtain ⟨t, ht1, ht2⟩ := sent_get hstop hi
  have hiv : i < v.length := by omega
  have hh : t.hasHead = true := by
    cases hreach i (by omega) with
    | root hx hr => rw [ht1] at hx; injection hx with hx; subst hx; exact hasHead_of_isRoot hr
    | step hx _ hs _ => rw [ht1] at hx; injection hx with hx; subst hx; simp [Token.hasHead, hs]
  unfold validateStep
  rw [pyGet_nat_ok.mpr ht2]
  simp only [hh, Bool.not_true, Bool.false_eq_true, if_false]
  have hset : ∀ q k : Nat, (v.set i (some i))[q]? = some (some k) →
      (q = i ∧ k = i) ∨ v[q]? = some (some k) := by
    intro q k hq
    exact set_mark hq
  by_cases hr : t.isRoot = true
  · simp only [hr, if_true]
    have hrf : r = false := by
      cases r with
      | false => rfl
      | true =>
        obtain ⟨j, t', hj, h1, h2⟩ := hf rfl
        obtain ⟨x, _, hx⟩ := huniq
        have e1 := hx j ⟨t', h1, h2⟩
        have e2 := hx i ⟨t, ht1, hr⟩
        omega
    simp only [hrf, Bool.false_eq_true, if_false]
    rw [List.getElem?_eq_getElem hiv]
    cases hv : v[i] with
    | none =>
      simp only
      refine ⟨_, rfl, by simpa using hl, ?_, fun _ => ⟨i, t, by omega, ht1, hr⟩⟩
      intro q k hq
      rcases hset q k hq with ⟨_, h⟩ | h
      · omega
      · have := hm q k h; omega
    | some k0 =>
      simp only
      refine ⟨_, rfl, hl, ?_, fun _ => ⟨i, t, by omega, ht1, hr⟩⟩
      intro q k hq
      have := hm q k hq; omega
  · simp only [hr, Bool.false_eq_true, if_false]
    rw [List.getElem?_eq_getElem hiv]
    have hf' : r = true → ∃ (j : Nat) (t : Token), j < i + 1 ∧ (slice toks s.start s.stop)[j]? = some t ∧ t.isRoot = true := by
      intro h
      obtain ⟨j, t', hj, h1⟩ := hf h
      exact ⟨j, t', by omega, h1⟩
    cases hv : v[i] with
    | some k0 =>
      simp only
      refine ⟨_, rfl, hl, ?_, hf'⟩
      intro q k hq
      have := hm q k hq; omega
    | none =>
      simp only
      obtain ⟨d, hd⟩ := (hreach i (by omega)).depth
      have hcount : (v.set i (some i)).count none < s.len + 1 := by
        have := List.count_le_length (a := (none : Option Nat)) (l := v.set i (some i))
        simp only [List.length_set] at this
        omega
      obtain ⟨v', h1, h2, h3⟩ := walk_complete hstop hcan i (s.len + 1) (v.set i (some i)) i d t ht1
        (by simpa using hl) hd hcount (fun q e hq hqe => by
          rcases hset q i hq with ⟨rfl, _⟩ | h5
          · exact le_of_eq (hd.det hqe)
          · have := hm q i h5; omega)
      rw [h1]
      simp only
      refine ⟨_, rfl, h2, ?_, hf'⟩
      intro q k hq
      rcases h3 q k hq with h4 | h4
      · rcases hset q k h4 with ⟨_, h5⟩ | h5
        · omega
        · have := hm q k h5; omega
      · omega

theorem hasHead_false {t : Token} : t.hasHead = false ↔ t.headDoc = none ∧ t.headSent = none := by
  unfold Token.hasHead
  cases t.headDoc <;> cases t.headSent <;> simp

theorem validateSentence_iff (hstop : s.stop ≤ toks.length)
    (hcan : ∀ t ∈ slice toks s.start s.stop, CanonHeads s.start t) :
    validateSentence toks s = .ok () ↔
      Headless (slice toks s.start s.stop) ∨ IsTree (slice toks s.start s.stop) := by
  have hlt := s.lt
  have hlen := slice_len hstop
  obtain ⟨t, ht1, ht2⟩ := sent_get hstop (h := 0) (by unfold Sentence.len; omega)
  unfold validateSentence
  rw [Nat.add_zero] at ht2
  rw [pyGet_nat_ok.mpr ht2]
  simp only
  by_cases hh : t.hasHead = true
  · simp only [hh, Bool.not_true, Bool.false_eq_true, if_false]
    have hnot : ¬ Headless (slice toks s.start s.stop) := by
      intro hl
      have := hl t (List.mem_of_getElem? ht1)
      rw [hasHead_false.mpr this] at hh; cases hh
    constructor
    · intro h
      cases hf : forM' (validateStep toks s) (false, List.replicate s.len none) (List.range s.len) with
      | error e => rw [hf] at h; cases h
      | ok st => exact .inr (validate_sound hstop hcan hf)
    · rintro (h | h)
      · exact absurd h hnot
      · obtain ⟨st, hst⟩ := validate_complete hstop hcan h
        rw [hst]
  · simp only [Bool.not_eq_true] at hh
    simp only [hh, Bool.not_false, if_true]
    have hnot : ¬ IsTree (slice toks s.start s.stop) := by
      rintro ⟨_, hr⟩
      have hx := hr 0 (by rw [hlen]; unfold Sentence.len; omega)
      cases hx with
      | root hx hr =>
        rw [ht1] at hx; injection hx with hx; subst hx
        rw [hasHead_of_isRoot hr] at hh; cases hh
      | step hx _ hs _ =>
        rw [ht1] at hx; injection hx with hx; subst hx
        simp [Token.hasHead, hs] at hh
    have hsplit : slice toks s.start s.stop = t :: slice toks (s.start + 1) s.stop := by
      have h1 := slice_append_slice toks (a := s.start) (b := s.start + 1) (c := s.stop) (by omega) (by omega)
      have h2 : slice toks s.start (s.start + 1) = [t] := by
        apply List.ext_getElem?
        intro i
        rw [slice_getElem?]
        cases i with
        | zero => simp [ht2]
        | succ i => rw [if_neg (by omega)]; simp
      rw [← h1, h2]; rfl
    have hiff : Headless (slice toks s.start s.stop) ↔
        (slice toks (s.start + 1) s.stop).any Token.hasHead = false := by
      rw [hsplit]
      unfold Headless
      simp only [List.forall_mem_cons]
      rw [List.any_eq_false]
      constructor
      · rintro ⟨_, h⟩ x hx
        simp [hasHead_false.mpr (h x hx)]
      · intro h
        refine ⟨hasHead_false.mp hh, fun x hx => hasHead_false.mp (by simpa using h x hx)⟩
    cases ha : (slice toks (s.start + 1) s.stop).any Token.hasHead with
    | true =>
      simp only [if_true, reduceCtorEq, false_iff, not_or]
      refine ⟨fun h => ?_, hnot⟩
      rw [hiff.mp h] at ha
      cases ha
    | false =>
      simp only [Bool.false_eq_true, if_false, true_iff]
      exact .inl (hiff.mpr ha)

theorem validateSyntax_iff {ss : List Sentence}
    (h : ∀ s ∈ ss, s.stop ≤ toks.length ∧ ∀ t ∈ slice toks s.start s.stop, CanonHeads s.start t) :
    validateSyntax toks ss = .ok () ↔
      ∀ s ∈ ss, Headless (slice toks s.start s.stop) ∨ IsTree (slice toks s.start s.stop) := by
  induction ss with
  | nil => simp [validateSyntax]
  | cons s ss ih =>
    simp only [List.forall_mem_cons] at h ⊢
    rw [← ih h.2, ← validateSentence_iff h.1.1 h.1.2]
    simp only [validateSyntax]
    cases hv : validateSentence toks s with
    | error e => simp
    | ok u => simp

end

end Verif
