import Verif.Model.RulesCache
import Verif.Props.TrainRun
import Verif.Props.LabelOrder

/-!
# What can be trained on: C142
-/

namespace Verif

theorem assocGet_append {K V : Type} [DecidableEq K] (k : K) (l m : List (K × V)) :
    assocGet k (l ++ m) = (assocGet k l).or (assocGet k m) := by
  induction l with
  | nil => simp [assocGet]
  | cons p l ih =>
    obtain ⟨k', v⟩ := p
    simp only [List.cons_append, assocGet]
    split
    · simp
    · exact ih

section
variable (lower : Str → Str) (threshold : Int)

/-- A table that is in the cache stays there. -/
theorem cached_stays (ds : DataObj) (st : RulesSt) {k : Nat} {rules : List LemmaRule} (h : assocGet k st.cache = some rules) :
    assocGet k (buildRulesCached lower threshold ds st).2.cache = some rules := by
  unfold buildRulesCached
  repeat' split
  · exact h
  · exact h
  · exact h
  · simp only [assocGet_append, h, Option.some_or]

theorem cached_given (ds : DataObj) (st : RulesSt) {k : Nat} {rules : List LemmaRule} (hk : ds.key = some k)
    (h : assocGet k st.cache = some rules) : (buildRulesCached lower threshold ds st).1 = .ok rules := by
  unfold buildRulesCached
  simp only [hk, h]

/-- A table that is given is in the cache afterwards. -/
theorem given_cached (ds : DataObj) (st : RulesSt) {rules : List LemmaRule}
    (h : (buildRulesCached lower threshold ds st).1 = .ok rules) :
    ∃ k, ds.key = some k ∧ assocGet k (buildRulesCached lower threshold ds st).2.cache = some rules := by
  unfold buildRulesCached at h ⊢
  cases hk : ds.key with
  | none => simp [hk] at h
  | some k =>
    refine ⟨k, rfl, ?_⟩
    simp only [hk] at h ⊢
    cases hc : assocGet k st.cache with
    | some r =>
      simp only [hc] at h ⊢
      injection h with h
      rw [h]
    | none =>
      simp only [hc] at h ⊢
      cases hb : buildRules lower threshold (ds.pass (st.passes k)) with
      | error e => simp [hb] at h
      | ok r =>
        simp only [hb] at h ⊢
        injection h with h
        simp [assocGet_append, hc, assocGet, h]

theorem calls_given {calls : List (DataObj × (Nat → Nat))} {st : RulesSt} {k : Nat} {rules : List LemmaRule}
    (h : assocGet k st.cache = some rules) {j : Nat} {ds : DataObj} {o : Nat → Nat} (hj : calls[j]? = some (ds, o))
    (hk : ds.key = some k) : (rulesCalls lower threshold calls st)[j]? = some (.ok rules) := by
  induction calls generalizing st j with
  | nil => simp at hj
  | cons c calls ih =>
    obtain ⟨ds', o'⟩ := c
    cases j with
    | zero =>
      simp only [List.getElem?_cons_zero, Option.some.injEq, Prod.mk.injEq] at hj
      obtain ⟨rfl, rfl⟩ := hj
      simp only [rulesCalls, List.getElem?_cons_zero, Option.some.injEq]
      exact cached_given lower threshold _ _ hk h
    | succ j =>
      rw [List.getElem?_cons_succ] at hj
      simp only [rulesCalls, List.getElem?_cons_succ]
      exact ih (cached_stays lower threshold ds' { st with passes := fun k => st.passes k + o' k } h) hj

/-- C142: rules are numbered once for a data set.  However often and in whatever order the feature and the label of a
provider are built, and however often the data set has been iterated over in between, with another order every time: if the
rules have been given once, they are given again, in the same order. -/
theorem C142_partial (calls : List (DataObj × (Nat → Nat))) (st : RulesSt) (i j : Nat) (hij : i ≤ j) (ds ds' : DataObj)
    (o o' : Nat → Nat) (hi : calls[i]? = some (ds, o)) (hj : calls[j]? = some (ds', o')) (hk : ds.key = ds'.key)
    (rules : List LemmaRule) (h : (rulesCalls lower threshold calls st)[i]? = some (.ok rules)) :
    (rulesCalls lower threshold calls st)[j]? = some (.ok rules) := by
  induction calls generalizing st i j with
  | nil => simp at hi
  | cons c calls ih =>
    obtain ⟨d0, o0⟩ := c
    cases i with
    | succ i =>
      cases j with
      | zero => omega
      | succ j =>
        rw [List.getElem?_cons_succ] at hi hj
        simp only [rulesCalls, List.getElem?_cons_succ] at h ⊢
        exact ih _ i j (by omega) hi hj h
    | zero =>
      cases j with
      | zero => exact h
      | succ j =>
        simp only [List.getElem?_cons_zero, Option.some.injEq, Prod.mk.injEq] at hi
        obtain ⟨rfl, rfl⟩ := hi
        rw [List.getElem?_cons_succ] at hj
        simp only [rulesCalls, List.getElem?_cons_zero, Option.some.injEq] at h
        obtain ⟨k, k1, k2⟩ := given_cached lower threshold _ _ h
        simp only [rulesCalls, List.getElem?_cons_succ]
        exact calls_given lower threshold k2 hj (by rw [← hk, k1])

/-- C142: and they are the rules of one of the iterations over the data set. -/
theorem C142_pass (calls : List (DataObj × (Nat → Nat))) (hsame : ∀ c ∈ calls, ∀ c' ∈ calls, c.1.key = c'.1.key → c.1 = c'.1)
    (j : Nat) (ds : DataObj) (o : Nat → Nat) (hj : calls[j]? = some (ds, o)) (rules : List LemmaRule)
    (h : (rulesCalls lower threshold calls {})[j]? = some (.ok rules)) :
    ∃ n, buildRules lower threshold (ds.pass n) = .ok rules := by
  have key : ∀ (rest : List (DataObj × (Nat → Nat))) (st : RulesSt), (∀ c ∈ rest, c ∈ calls) →
      (∀ k r, assocGet k st.cache = some r → ∃ c ∈ calls, c.1.key = some k ∧ ∃ n, buildRules lower threshold (c.1.pass n) = .ok r) →
      ∀ (j : Nat) (ds : DataObj) (o : Nat → Nat), rest[j]? = some (ds, o) → (rulesCalls lower threshold rest st)[j]? = some (.ok rules) →
      ∃ n, buildRules lower threshold (ds.pass n) = .ok rules := by
    intro rest
    induction rest with
    | nil =>
      intro st _ _ j ds o hj
      simp at hj
    | cons c rest ih =>
      intro st hmem hst j ds o hj h
      obtain ⟨d0, o0⟩ := c
      have hcall : ∀ st' : RulesSt, st'.cache = st.cache →
          (∀ k r, assocGet k (buildRulesCached lower threshold d0 st').2.cache = some r →
            ∃ c ∈ calls, c.1.key = some k ∧ ∃ n, buildRules lower threshold (c.1.pass n) = .ok r) := by
        intro st' hc k r hr
        unfold buildRulesCached at hr
        cases hk : d0.key with
        | none =>
          simp only [hk, hc] at hr
          exact hst k r hr
        | some k0 =>
          simp only [hk] at hr
          split at hr
          · rw [hc] at hr
            exact hst k r hr
          · split at hr
            · simp only [hc] at hr
              exact hst k r hr
            · rename_i rules' hb
              rw [assocGet_append, hc] at hr
              cases hx : assocGet k st.cache with
              | some r' =>
                rw [hx] at hr
                simp only [Option.some_or, Option.some.injEq] at hr
                subst hr
                exact hst k _ hx
              | none =>
                rw [hx] at hr
                simp only [assocGet, Option.none_or] at hr
                split at hr
                · rename_i e
                  subst e
                  injection hr with hr
                  subst hr
                  exact ⟨(d0, o0), hmem _ List.mem_cons_self, hk, _, hb⟩
                · cases hr
      cases j with
      | zero =>
        simp only [List.getElem?_cons_zero, Option.some.injEq, Prod.mk.injEq] at hj
        obtain ⟨rfl, rfl⟩ := hj
        simp only [rulesCalls, List.getElem?_cons_zero, Option.some.injEq] at h
        obtain ⟨k, k1, k2⟩ := given_cached lower threshold _ _ h
        obtain ⟨c, c1, c2, n, c3⟩ := hcall { st with passes := fun k => st.passes k + o0 k } rfl k rules k2
        have := hsame c c1 _ (hmem _ List.mem_cons_self) (by rw [c2, k1])
        exact ⟨n, by rw [← c3, this]⟩
      | succ j =>
        rw [List.getElem?_cons_succ] at hj
        simp only [rulesCalls, List.getElem?_cons_succ] at h
        exact ih _ (fun c hc => hmem c (List.mem_cons_of_mem _ hc)) (hcall { st with passes := fun k => st.passes k + o0 k } rfl) j ds o hj h
  exact key calls {} (fun c hc => hc) (fun k r h => by cases h) j ds o hj h

/-- C142: a list of documents cannot be trained on with lemma rules: they are never built. -/
theorem C142_list_refuted (docs : List Document) (st : RulesSt) :
    (buildRulesCached lower threshold (.list docs) st).1 = .error .type := rfl

end

/-- C142: a generator of documents cannot be trained on for more than one epoch, whatever the network, the settings and the
labels are, and however often it has been iterated over when training begins: there is at most one tagger, and an
exception. -/
theorem C142_generator_refuted {F μ : Type} (lower : Str → Str) (float : Str → Res F) (zero : F) (other : TextToken)
    (sp : Nat → Sparsify) (seen : Seen) (ps : List Provider)
    (build : Dict Str Shape → Dict Str (InitRows F) → Res μ) (opt : μ → Features × Features → Rat → Res (μ × Rat))
    (cfg : TrainCfg) (dir : List Str) (dev : Option (Nat → List Str × μ → Res ScoreTable)) (key before : Nat)
    (docs : List Document) (hepochs : 2 ≤ cfg.epochs) :
    ∃ e, neuralTrain lower float zero other sp seen ps build opt cfg dir
        (fun n => (DataObj.generator key docs).pass (before + n)) dev = .error e ∨
      ∃ st, neuralTrain lower float zero other sp seen ps build opt cfg dir
        (fun n => (DataObj.generator key docs).pass (before + n)) dev = .ok (st, some e) ∧ st.taggers.length ≤ 1 := by
  cases h : neuralTrain lower float zero other sp seen ps build opt cfg dir
        (fun n => (DataObj.generator key docs).pass (before + n)) dev with
  | error e => exact ⟨e, .inl rfl⟩
  | ok r =>
    obtain ⟨st, failure⟩ := r
    obtain ⟨_, _, _, init, _, _, _, _, _, hm⟩ := C141_models lower float zero other sp seen ps build opt cfg dir _ dev h
    have h1 : st.taggers.length ≤ 1 := by
      by_contra hlt
      have hlt : 1 < st.taggers.length := by omega
      obtain ⟨_, steps, _, _, hfeed, hne, _⟩ := hm 1 _ _ (List.getElem?_eq_getElem hlt)
      have hp : (DataObj.generator key docs).pass (before + 1) = [] := by simp [DataObj.generator]
      rw [hp] at hfeed
      unfold trainingFeed at hfeed
      split at hfeed
      · cases hfeed
      · split at hfeed
        · cases hfeed
        · simp [sentenceObjs, minibatches, mapM'] at hfeed
          exact hne hfeed
    cases failure with
    | some e => exact ⟨e, .inr ⟨st, rfl, h1⟩⟩
    | none =>
      exfalso
      unfold neuralTrain at h
      repeat' split at h
      all_goals first
        | cases h; done
        | skip
      rename_i init' _
      injection h with h
      rcases trainLoop_spec (feedStep lower float zero other sp seen ps opt) cfg dir
        (epochSents fun n => (DataObj.generator key docs).pass (before + n)) dev init' with ⟨st', g1, g2⟩ | ⟨_, st', e, _, g1, _⟩
      · rw [h] at g1
        injection g1 with g1 _
        subst g1
        have := g2.taggers
        omega
      · rw [h] at g1
        injection g1 with _ g1
        cases g1

/-- Two documents in two orders, whose rules are equally frequent: the label, built when the order is another one, has the
rules in the order of the feature. -/
example : rulesCalls id 0 [(⟨some 0, fun n => if n % 2 = 0 then [Demo.od1, Demo.od2] else [Demo.od2, Demo.od1]⟩, fun _ => 0),
      (⟨some 0, fun n => if n % 2 = 0 then [Demo.od1, Demo.od2] else [Demo.od2, Demo.od1]⟩, fun _ => 2)] {} =
    [buildRules id 0 [Demo.od1, Demo.od2], buildRules id 0 [Demo.od1, Demo.od2]] ∧
    (buildRules id 0 [Demo.od1, Demo.od2]).isOk = true ∧
    buildRules id 0 [Demo.od1, Demo.od2] ≠ buildRules id 0 [Demo.od2, Demo.od1] := by decide +kernel

/-- A generator another builder has used up: there are no rules, because there are no words. -/
example : rulesCalls id 0 [(.generator 0 [Demo.od1, Demo.od2], fun _ => 1)] {} = [.error .index] := by decide +kernel

/-- Two epochs over the letters from a generator. -/
example : (neuralTrain id Demo.float 0 (Demo.ptok 0) (fun _ => keepAll) Demo.letterSeen Demo.letterProviders
    (fun _ _ => .ok 0) Demo.countSteps ⟨1, 0, 2, 2, 1⟩ ["m".toList]
    (fun n => (DataObj.generator 0 Demo.letterDocs).pass (0 + n)) none).map (fun r => (r.1.taggers.map Prod.snd, r.2)) =
    .ok ([2], some .zeroDivision) := by decide +kernel

end Verif
