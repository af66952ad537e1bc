import Verif.Proofs.Feeding
import Verif.Props.Extractors
import Verif.Spec.Interpreters

/-! # The values of words in training steps -/

namespace Verif

section
variable {F : Type} {lower : Str → Str} {float : Str → Res F} {zero : F} {other : TextToken} {sp : Sparsify}
  {seen : Seen} {ps : List Provider} {docs : List Document}

theorem at_ids (ids : List Int) (q : Nat) : (idsFeat ids).at [q] = (ids[q]?).map Feat.int := by
  simp only [idsFeat, Feat.at, List.getElem?_map]
  cases ids[q]? <;> rfl

theorem at_flags (flags : List Bool) (q : Nat) : (Feat.list (flags.map Feat.bool)).at [q] = (flags[q]?).map Feat.bool := by
  simp only [Feat.at, List.getElem?_map]
  cases flags[q]? <;> rfl

/-- The value of a word in a row of what is extracted from several sentences. -/
theorem word_value {spec : Provider → Option LeafSpec} {mk : Nat → Provider → Builder}
    (hmk : ∀ id p, (spec p = none ∧ (mk id p).leaves = [([], none)]) ∨
      ∃ s ws, spec p = some s ∧ (mk id p).leaves = [(ws, some (s.ty, id))])
    {b : Builder} (hb : mergeBuilders (ps.zipIdx.map (fun p => mk p.2 p.1)) = .ok b) {x : BuiltX F}
    (hx : b.build (buildSpec lower float zero (datasetTok other docs) seen spec ps) sp = .ok x)
    {os : List Obj} {batch : List (Document × Sentence)} (hstand : List.Forall₂ (StandsFor docs) os batch) {D : Features}
    (hD : x.extract (.mk 0 os) = .ok D) {id : Nat} {p : Provider} {s : LeafSpec} (hp : ps[id]? = some p)
    (hs : spec p = some s) (hw : (mk id p).leaves = [([.padding, .iter, .iter], some (s.ty, id))])
    {i : Nat} {d : Document} {st : Sentence} (hi : batch[i]? = some (d, st)) (hd : Built d) {j : Nat}
    (hj : j < st.stop - st.start) :
    ∃ v y k w, D.get? s.name = some v ∧ s.build lower float zero (datasetTok other docs) (seen s) = .ok y ∧
      datasetTok other docs k = docTok other d (st.start + j) ∧
      y.extract (.mk k []) = .ok (Dict.ofList [(s.name, w)]) ∧
      ∀ q c, w.at q = some c → c.isList = false → v.at (i :: j :: q) = some c := by
  obtain ⟨ws, hm⟩ := leaves_merged hmk hb hp hs
  obtain ⟨p', s', hp', hs', _, hl⟩ := merged_leaves hmk hb hm
  rw [hp] at hp'
  injection hp' with hp'
  subst hp'
  rw [hw] at hl
  simp only [List.cons.injEq, Prod.mk.injEq, and_true] at hl
  subst hl
  have hitems : ∀ o ∈ os, o.items ≠ [] := by
    intro o ho
    obtain ⟨p, _, hp⟩ := forall₂_mem_left hstand ho
    obtain ⟨off, rfl, _⟩ := hp.tokens
    exact sentenceObj_items off p.2
  obtain ⟨o, ho, hso⟩ : ∃ o, os[i]? = some o ∧ StandsFor docs o (d, st) := by
    have := get_of_forall₂ hstand i
    rw [hi] at this
    cases ho : os[i]? with
    | none => rw [ho] at this; cases this
    | some o =>
      rw [ho] at this
      cases this with
      | some h => exact ⟨o, rfl, h⟩
  have hos : os ≠ [] := by
    rintro rfl
    simp at ho
  obtain ⟨v, hv, u, ⟨us, rfl, hus⟩, hpv⟩ := exact_leaf (specYields_leaf spec) b x hx (.mk 0 os) D hD _ _ id hm
    (show Peopled [.padding, .iter, .iter] (.mk 0 os) from ⟨hos, fun o ho => ⟨hitems o ho, fun _ _ => trivial⟩⟩)
  rw [specName_eq hp hs] at hv hus
  obtain ⟨hs2, rfl, hsame⟩ := hso.same hd other
  have hgi := get_of_forall₂ hus i
  simp only [Obj.items] at hgi
  rw [ho] at hgi
  cases hui : us[i]? with
  | none => rw [hui] at hgi; cases hgi
  | some u =>
    rw [hui] at hgi
    cases hgi with
    | some hgi =>
      obtain ⟨vs, rfl, hvs⟩ := hgi
      have hk := get_of_forall₂ hsame j
      have hr : (List.range' st.start (st.stop - st.start))[j]? = some (st.start + j) := by
        rw [List.getElem?_range' hj]
        simp
      rw [hr] at hk
      cases hkj : hs2[j]? with
      | none => rw [hkj] at hk; cases hk
      | some k =>
        rw [hkj] at hk
        cases hk with
        | some hk =>
          have hgj := get_of_forall₂ hvs j
          simp only [Obj.items, List.getElem?_map, hkj, Option.map_some] at hgj
          cases hwj : vs[j]? with
          | none => rw [hwj] at hgj; cases hgj
          | some w =>
            rw [hwj] at hgj
            cases hgj with
            | some hgj =>
              obtain ⟨y, hy, hyv⟩ := hgj
              obtain ⟨p2, s2, hp2, hs3, hy2⟩ := buildSpec_ok.1 hy
              rw [hp] at hp2
              injection hp2 with hp2
              subst hp2
              rw [hs] at hs3
              injection hs3 with hs3
              subst hs3
              rw [specName_eq hp hs] at hyv
              refine ⟨v, y, k, w, hv, hy2, hk, hyv, fun q c hc hcl => ?_⟩
              obtain ⟨_, sh, _, hkeep, _⟩ := padValue_good hpv
              obtain ⟨z, hz, hz2, _⟩ := hkeep (i :: j :: q) c (by simp [Feat.at, hui, hwj, hc])
              rw [hz, hz2 hcl]

end

/-- How often a rule is needed in the training data. -/
theorem rule_occurrences {lower : Str → Str} (r : LemmaRule) {ts : List TextToken} {rs : List LemmaRule}
    (h : List.Forall₂ (fun a b => suffixRule lower a = .ok b) ts rs) :
    ts.countP (fun t' => t'.2.lemma'.any (fun l' => LemmaRule.getRule (lower t'.1) (lower l') = r)) =
      occurrences LemmaRule.pyEq r rs := by
  induction h with
  | nil => rfl
  | @cons a b ts rs hab _ ih =>
    rw [occurrences, List.countP_cons, List.countP_cons, ih, occurrences]
    congr 1
    cases hla : a.2.lemma' with
    | none => simp [suffixRule, hla] at hab
    | some la =>
      rw [suffixRule_some hla] at hab
      injection hab with hab
      subst hab
      simp only [Option.any_some, decide_eq_true_eq, ruleEq_iff]
      congr 1
      exact propext eq_comm

/-- A rule that is known is in the table. -/
theorem known_rule {lower : Str → Str} {t : Int} {dataset : List Document} {rules : List LemmaRule}
    (hb : buildRules lower t dataset = .ok rules) {g : TextToken} {f l : Str}
    (h : KnownFor lower dataset g (.lemmaRules f l t)) :
    ∃ lem, g.2.lemma' = some lem ∧ LemmaRule.getRule (lower g.1) (lower lem) ∈ rules := by
  obtain ⟨lem, hl, u, hu, lu, hlu, heq, hthr⟩ := h
  obtain ⟨lu', hlu', hin⟩ := C47_training_rules lower t dataset rules hb u hu
  rw [hlu] at hlu'
  injection hlu' with hlu'
  subst hlu'
  rw [heq] at hin
  exact ⟨lem, hl, hin hthr⟩

/-- The label of a rule that is not known. -/
theorem unknown_rule {lower : Str → Str} {t : Int} {dataset : List Document} {rules : List LemmaRule}
    (hb : buildRules lower t dataset = .ok rules) {g : TextToken} {f l : Str}
    (h : ¬ KnownFor lower dataset g (.lemmaRules f l t)) {r : Nat} (hr : encodeRule lower rules g = .ok [(r : Int)]) :
    r = 0 := by
  cases hl : g.2.lemma' with
  | none => simp [encodeRule, suffixRule, hl] at hr
  | some lem =>
    simp only [encodeRule, suffixRule_some hl, Except.ok.injEq, List.cons.injEq, and_true, Int.natCast_inj] at hr
    obtain ⟨all, h1, h2⟩ := buildRules_ok hb
    have hspec := id2obj_spec ruleEq_rel h2
    cases hg : eqGet LemmaRule.pyEq (LemmaRule.getRule (lower g.1) (lower lem)) (obj2id LemmaRule.pyEq rules) with
    | none => rw [hg] at hr; simpa using hr.symm
    | some i =>
      rw [hg] at hr
      simp only [Option.getD_some] at hr
      subst hr
      obtain ⟨y, hy, hyr⟩ := (eqGet_obj2id ruleEq_rel hspec.distinct _ i).1 hg
      have hyr' := (ruleEq_iff ..).1 hyr
      subst hyr'
      have hmem := List.mem_of_getElem? hy
      rw [mapM'_ok_iff] at h1
      obtain ⟨u, hu, hur⟩ := forall₂_mem_right h1 (hspec.subset _ hmem)
      rcases (hspec.covers _ (hspec.subset _ hmem)).1 ⟨_, hmem, hyr⟩ with ⟨b, hb1, hb2⟩ | hthr
      · have : eqGet LemmaRule.pyEq (LemmaRule.getRule (lower g.1) (lower lem)) (obj2id LemmaRule.pyEq rules) = some 0 :=
          (eqGet_obj2id ruleEq_rel hspec.distinct _ 0).2 ⟨b, by rw [← hb1, List.head?_eq_getElem?], hb2⟩
        rw [hg] at this
        injection this
      · exfalso
        apply h
        cases hlu : u.2.lemma' with
        | none => simp [suffixRule, hlu] at hur
        | some lu =>
          rw [suffixRule_some hlu] at hur
          injection hur with hur
          refine ⟨lem, hl, u, hu, lu, hlu, hur, ?_⟩
          rw [rule_occurrences _ h1]
          exact hthr

end Verif
