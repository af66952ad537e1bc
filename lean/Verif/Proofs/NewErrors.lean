import Verif.Props.Datamodel2
import Verif.Proofs.FeaturesMerge

/-! Which exceptions the document constructor raises. -/

namespace Verif

theorem fillHeads_err {t : Token} {k : Nat} {e : Err} (h : t.fillHeads k = .error e) :
    e = .value := by
  unfold Token.fillHeads at h
  simp only [Token.withSyntax_ok] at h
  cases hs : t.headSent with
  | none =>
    cases hd : t.headDoc with
    | none => simp [hs, hd] at h
    | some d =>
      simp only [hs, hd] at h
      split at h <;> cases h
  | some s =>
    cases hd : t.headDoc with
    | none =>
      simp only [hs, hd] at h
      split at h <;> cases h
    | some d =>
      simp only [hs, hd] at h
      split at h
      · cases h
      · split at h
        · injection h with h; exact h.symm
        · cases h

theorem fillTokenHeads_err {toks : List Token} {ss : List Sentence} {e : Err}
    (h : fillTokenHeads toks ss = .error e) : e = .value := by
  induction ss with
  | nil => cases h
  | cons s ss ih =>
    simp only [fillTokenHeads] at h
    cases hm : mapM' (fun t : Token => t.fillHeads s.start) (slice toks s.start s.stop) with
    | error e' =>
      rw [hm] at h
      injection h with h
      subst h
      obtain ⟨t, _, ht⟩ := mapM'_error hm
      exact fillHeads_err ht
    | ok r =>
      rw [hm] at h
      cases hr : fillTokenHeads toks ss with
      | error e' => rw [hr] at h; injection h with h; subst h; exact ih hr
      | ok r' => rw [hr] at h; cases h

theorem wordList_err {toks : List Token} {ss : List Sentence} {e : Err}
    (h : wordList toks ss = .error e) : e = .value := by
  unfold wordList at h
  simp only at h
  split at h
  · injection h with h; exact h.symm
  · split at h
    · injection h with h; exact h.symm
    · split at h
      · cases h
      · exact fillTokenHeads_err h

section
variable {toks : List Token} {s : Sentence}

theorem walk_err (hstop : s.stop ≤ toks.length)
    (hcan : ∀ t ∈ slice toks s.start s.stop, CanonHeads s.start t) (i : Nat) :
    ∀ (fuel : Nat) (visited : List (Option Nat)) (p : Nat) (t : Token),
      (slice toks s.start s.stop)[p]? = some t → visited.length = s.len →
      visited.count none < fuel →
      (∀ e, validateWalk toks s.len i fuel visited t = .error e → e = .value) ∧
      ∀ v, validateWalk toks s.len i fuel visited t = .ok v → v.length = s.len := by
  intro fuel
  induction fuel with
  | zero => intro visited p t _ _ h; omega
  | succ fuel ih =>
    intro visited p t hp hlen hfuel
    simp only [validateWalk]
    by_cases hc : (t.hasHead && !t.isRoot) = true
    swap
    · rw [if_neg hc]
      refine ⟨fun e h => (by cases h), fun v h => ?_⟩
      injection h with h
      exact h ▸ hlen
    rw [if_pos hc]
    simp only [Bool.and_eq_true, Bool.not_eq_true'] at hc
    obtain ⟨a, ha1, ha2⟩ := canon_hasHead (hcan t (List.mem_of_getElem? hp)) hc.1 hc.2
    simp only [ha1, ha2]
    by_cases hr : a < 0 ∨ a ≥ (s.len : Int)
    · rw [if_pos hr]
      exact ⟨fun e h => by injection h with h; exact h.symm, fun v h => by cases h⟩
    rw [if_neg hr]
    obtain ⟨h, rfl⟩ : ∃ h : Nat, a = h := ⟨a.toNat, by omega⟩
    have hlt : h < s.len := by omega
    simp only [Int.toNat_natCast]
    obtain ⟨tn, htn1, htn2⟩ := sent_get hstop hlt
    have e : ((h : Int) + (s.start : Int)) = ((s.start + h : Nat) : Int) := by push_cast; omega
    rw [e, pyGet_nat_ok.mpr htn2, List.getElem?_eq_getElem (by omega : h < visited.length)]
    cases hv : visited[h]'(by omega) with
    | none =>
      simp only
      have hn : visited[h]? = some none := by
        rw [List.getElem?_eq_getElem (by omega : h < visited.length), hv]
      have := count_set_lt (i := i) hn
      exact ih (visited.set h (some i)) h tn htn1 (by simpa using hlen) (by omega)
    | some j =>
      simp only
      split
      · exact ⟨fun e h => by injection h with h; exact h.symm, fun v h => by cases h⟩
      · refine ⟨fun e h => (by cases h), fun v h => ?_⟩
        injection h with h
        exact h ▸ hlen

theorem step_err (hstop : s.stop ≤ toks.length)
    (hcan : ∀ t ∈ slice toks s.start s.stop, CanonHeads s.start t) {i : Nat} (hi : i < s.len)
    {st : Bool × List (Option Nat)} (hlen : st.2.length = s.len) :
    (∀ e, validateStep toks s st i = .error e → e = .value) ∧
    ∀ st', validateStep toks s st i = .ok st' → st'.2.length = s.len := by
  obtain ⟨t, ht1, ht2⟩ := sent_get hstop hi
  unfold validateStep
  rw [pyGet_nat_ok.mpr ht2]
  simp only
  have hv : ∀ {x : Res (Bool × List (Option Nat))}, x = .error .value →
      (∀ e, x = .error e → e = .value) ∧ ∀ st', x = .ok st' → st'.2.length = s.len := by
    rintro x rfl
    exact ⟨fun e h => by injection h with h; exact h.symm, fun v h => by cases h⟩
  have hok : ∀ {x : Res (Bool × List (Option Nat))} {y}, x = .ok y → y.2.length = s.len →
      (∀ e, x = .error e → e = .value) ∧ ∀ st', x = .ok st' → st'.2.length = s.len := by
    rintro x y rfl hy
    exact ⟨fun e h => (by cases h), fun v h => by injection h with h; exact h ▸ hy⟩
  split
  · exact hv rfl
  · rw [List.getElem?_eq_getElem (by omega : i < st.2.length)]
    split
    · split
      · exact hv rfl
      · cases st.2[i]'(by omega) with
        | none => exact hok rfl (by simpa using hlen)
        | some j => exact hok rfl hlen
    · cases hg : st.2[i]'(by omega) with
      | some j => exact hok rfl hlen
      | none =>
        simp only
        have hcnt : (st.2.set i (some i)).count none < s.len + 1 := by
          have := List.count_le_length (a := (none : Option Nat)) (l := st.2.set i (some i))
          simp at this
          omega
        obtain ⟨h1, h2⟩ := walk_err hstop hcan i (s.len + 1) (st.2.set i (some i)) i t ht1
          (by simpa using hlen) hcnt
        cases hw : validateWalk toks s.len i (s.len + 1) (st.2.set i (some i)) t with
        | error e => exact hv (by rw [h1 e hw])
        | ok v => exact hok rfl (h2 v hw)

theorem forM'_range_err {σ : Type} {f : σ → Nat → Res σ} {I : σ → Prop} {e : Err} :
    ∀ {n : Nat} {s₀ : σ}, I s₀ →
    (∀ i s, i < n → I s → (∀ e', f s i = .error e' → e' = e) ∧ ∀ s', f s i = .ok s' → I s') →
    (∀ e', forM' f s₀ (List.range n) = .error e' → e' = e) ∧
      ∀ s', forM' f s₀ (List.range n) = .ok s' → I s' := by
  intro n
  induction n with
  | zero =>
    intro s₀ h0 _
    refine ⟨fun e' h => by simp [forM'] at h, fun s' h => ?_⟩
    simp only [List.range_zero, forM'] at h
    injection h with h
    exact h ▸ h0
  | succ n ih =>
    intro s₀ h0 hs
    obtain ⟨h1, h2⟩ := ih h0 (fun i s hi => hs i s (by omega))
    rw [List.range_succ, forM'_append]
    cases hm : forM' f s₀ (List.range n) with
    | error e1 =>
      refine ⟨fun e' h => ?_, fun s' h => by cases h⟩
      injection h with h
      exact h ▸ h1 e1 hm
    | ok s1 =>
      obtain ⟨h3, h4⟩ := hs n s1 (by omega) (h2 s1 hm)
      simp only [forM']
      cases hf : f s1 n with
      | error e1 =>
        refine ⟨fun e' h => ?_, fun s' h => by cases h⟩
        injection h with h
        exact h ▸ h3 e1 hf
      | ok s2 =>
        refine ⟨fun e' h => (by cases h), fun s' h => ?_⟩
        simp only at h
        injection h with h
        exact h ▸ h4 s2 hf

theorem validateSentence_err (hstop : s.stop ≤ toks.length)
    (hcan : ∀ t ∈ slice toks s.start s.stop, CanonHeads s.start t) {e : Err}
    (h : validateSentence toks s = .error e) : e = .value := by
  have hlt := s.lt
  obtain ⟨t, ht1, ht2⟩ := sent_get hstop (h := 0) (by unfold Sentence.len; omega)
  unfold validateSentence at h
  rw [Nat.add_zero] at ht2
  rw [pyGet_nat_ok.mpr ht2] at h
  simp only at h
  split at h
  · split at h
    · injection h with h; exact h.symm
    · cases h
  · have := (forM'_range_err (f := validateStep toks s) (e := .value)
      (I := fun st => st.2.length = s.len) (n := s.len)
      (s₀ := (false, List.replicate s.len none)) (by simp)
      (fun i st hi hst => step_err hstop hcan hi hst)).1
    split at h
    · rename_i e' he
      injection h with h
      exact h ▸ this e' he
    · cases h

end

theorem validateSyntax_err {toks : List Token} {ss : List Sentence}
    (h : ∀ s ∈ ss, s.stop ≤ toks.length ∧ ∀ t ∈ slice toks s.start s.stop, CanonHeads s.start t)
    {e : Err} (he : validateSyntax toks ss = .error e) : e = .value := by
  induction ss with
  | nil => cases he
  | cons s ss ih =>
    simp only [List.forall_mem_cons] at h
    simp only [validateSyntax] at he
    cases hv : validateSentence toks s with
    | error e' =>
      rw [hv] at he
      injection he with he
      exact he ▸ validateSentence_err h.1.1 h.1.2 hv
    | ok u => rw [hv] at he; exact ih h.2 he

/-- Construction with validation is construction without, followed by the validation. -/
theorem new_true_eq (text : Str) (tokens : List Token) (sents : Option (List Sentence)) :
    Document.new text tokens sents true =
      match Document.new text tokens sents false with
      | .error e => .error e
      | .ok d =>
        match validateSyntax d.tokens d.sentences with
        | .error e => .error e
        | .ok () => .ok d := by
  unfold Document.new
  simp only
  cases wordList tokens (sortedSentences tokens sents) with
  | error e => rfl
  | ok toks =>
    simp only
    cases tokens.isEmpty with
    | true => simp [validateSyntax]
    | false =>
      simp only [Bool.false_eq_true, if_false]
      cases (sortedSentences tokens sents).head? with
      | none => rfl
      | some f =>
        cases (sortedSentences tokens sents).getLast? with
        | none => rfl
        | some l =>
          simp only [if_true, Bool.false_eq_true, if_false]
          by_cases c1 : l.stop > tokens.length
          · simp only [if_pos c1]
          by_cases c2 : f.start > 0
          · simp only [if_neg c1, if_pos c2]
          by_cases c3 : l.stop < tokens.length
          · simp only [if_neg c1, if_neg c2, if_pos c3]
          simp only [if_neg c1, if_neg c2, if_neg c3]
          cases checkForSequence (fun x y : Sentence => decide (x.stop ≠ y.start))
            (sortedSentences tokens sents) with
          | false => rfl
          | true =>
            cases checkForSequence (fun x y : Sentence => decide (x.stop > y.start))
              (sortedSentences tokens sents) with
            | false => rfl
            | true => rfl

theorem new_false_err {text : Str} {tokens : List Token} {sents : Option (List Sentence)} {e : Err}
    (h : Document.new text tokens sents false = .error e) :
    e = .value ∨ e = .index ∧ sents = some [] ∧ tokens ≠ [] := by
  unfold Document.new at h
  simp only at h
  cases hw : wordList tokens (sortedSentences tokens sents) with
  | error e' =>
    rw [hw] at h
    injection h with h
    exact .inl (h ▸ wordList_err hw)
  | ok toks =>
    rw [hw] at h
    simp only at h
    by_cases hne : tokens = []
    · simp [hne] at h
    · rw [if_neg (by simpa using hne)] at h
      cases hss : sortedSentences tokens sents with
      | nil =>
        rw [hss] at h
        simp only [List.head?_nil] at h
        injection h with h
        refine .inr ⟨h.symm, ?_, hne⟩
        cases sents with
        | none =>
          have : 0 < tokens.length := List.length_pos_of_ne_nil hne
          simp [sortedSentences, this] at hss
        | some ss =>
          rw [sortedSentences_of_ne hne] at hss
          have := pySorted_perm sentLe ss
          rw [hss] at this
          rw [this.nil_eq]
      | cons a l =>
        rw [hss, List.head?_cons, List.getLast?_eq_some_getLast (by simp)] at h
        simp only [Bool.false_eq_true, if_false] at h
        left
        repeat' split at h
        all_goals first | (injection h with h; exact h.symm) | cases h

end Verif
