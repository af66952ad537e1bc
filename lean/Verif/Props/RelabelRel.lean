import Verif.Spec.RelabelRel
import Verif.Props.Relabel

/-!
# C173: other names for relations
-/

namespace Verif

theorem OtherRelation.look {r : Str → Str} {a b : UDWord} (h : OtherRelation r a b) (lower : Str → Str) :
    SameLook lower a b := ⟨h.span, h.multi, by rw [h.form]⟩

theorem pairSat_related {R : UDWord → UDWord → Prop} {gold gold' sys sys' : List UDWord} {P Q : UDWord → UDWord → Prop}
    (hg : List.Forall₂ R gold gold') (hs : List.Forall₂ R sys sys')
    (h : ∀ g s g' s', R g g' → R s s' → P g s → Q g' s') {p : Nat × Nat}
    (hp : PairSat gold sys P p) : PairSat gold' sys' Q p := by
  obtain ⟨g, s, h1, h2, h3⟩ := hp
  have hl := hg.length_eq
  have hl' := hs.length_eq
  obtain ⟨k1, e1⟩ := List.getElem?_eq_some_iff.1 h1
  obtain ⟨k2, e2⟩ := List.getElem?_eq_some_iff.1 h2
  have r1 := hg.get (i := p.1) k1 (hl ▸ k1)
  have r2 := hs.get (i := p.2) k2 (hl' ▸ k2)
  refine ⟨gold'[p.1]'(hl ▸ k1), sys'[p.2]'(hl' ▸ k2), List.getElem?_eq_getElem _, List.getElem?_eq_getElem _,
    h g s _ _ ?_ ?_ h3⟩
  · rw [← e1]; exact r1
  · rw [← e2]; exact r2

theorem pairSat_related_iff {R : UDWord → UDWord → Prop} {gold gold' sys sys' : List UDWord}
    {P Q : UDWord → UDWord → Prop} (hg : List.Forall₂ R gold gold') (hs : List.Forall₂ R sys sys')
    (h : ∀ g s g' s', R g g' → R s s' → (P g s ↔ Q g' s')) (p : Nat × Nat) :
    PairSat gold sys P p ↔ PairSat gold' sys' Q p :=
  ⟨pairSat_related hg hs (fun g s g' s' r r' => (h g s g' s' r r').mp),
   pairSat_related (R := fun a b => R b a) hg.flip hs.flip (fun g s g' s' r r' => (h g' s' g s r r').mpr)⟩

theorem related_weight {R : UDWord → UDWord → Prop} {ws vs : List UDWord} (h : List.Forall₂ R ws vs)
    {wt : UDWord → Rat} (hwt : ∀ a b, R a b → wt a = wt b) : wordsWeight wt ws = wordsWeight wt vs := by
  unfold wordsWeight
  congr 1
  refine List.forall₂_eq_eq_eq ▸ List.forall₂_map_left_iff.2 (List.forall₂_map_right_iff.2 ?_)
  exact h.imp hwt

theorem related_goldWeight {R : UDWord → UDWord → Prop} {ws vs : List UDWord} (h : List.Forall₂ R ws vs)
    {wt : UDWord → Rat} (hwt : ∀ a b, R a b → wt a = wt b)
    (pairs : List (Nat × Nat)) : goldWeight wt ws pairs = goldWeight wt vs pairs := by
  unfold goldWeight
  congr 1
  refine List.map_congr_left (fun p _ => ?_)
  by_cases k : p.1 < ws.length
  · have k' : p.1 < vs.length := h.length_eq ▸ k
    rw [List.getElem?_eq_getElem k, List.getElem?_eq_getElem k']
    simp only [Option.map_some, Option.getD_some]
    exact hwt _ _ (h.get (i := p.1) k k')
  · have k' : ¬ p.1 < vs.length := h.length_eq ▸ k
    rw [List.getElem?_eq_none (Nat.le_of_not_lt k), List.getElem?_eq_none (Nat.le_of_not_lt k')]

/-- C173: if relations get other names in both files, UAS and the scores of tags, features and lemmas stay, and LAS does not
get lower; if different relations stay different, LAS stays, and so does CLAS if the relations of function words stay ones,
and the weighted score if the new names have the weights of the old ones. -/
theorem C173_relations {lower : Str → Str} {gold gold' sys sys' : UD} {weights : Option (Dict Str Rat)} {m m' : Metrics}
    (r : Str → Str) (hg : Loaded gold) (hs : Loaded sys) (hg' : Loaded gold') (hs' : Loaded sys')
    (rg : OtherRelations r gold gold') (rs : OtherRelations r sys sys')
    (h : evaluate lower gold sys weights = .ok m) (h' : evaluate lower gold' sys' weights = .ok m') :
    m'.tokens = m.tokens ∧ m'.sentences = m.sentences ∧ m'.words = m.words ∧
    (∀ cols s s', (cols, s) ∈ m.byColumns → (cols, s') ∈ m'.byColumns → s' = s) ∧ m'.uas = m.uas ∧
    ScoreLe m.las m'.las ∧
    (Function.Injective r → m'.las = m.las ∧
      ((∀ d, r d ∈ functionRelations ↔ d ∈ functionRelations) → m'.clas = m.clas) ∧
      ((∀ ws, weights = some ws → ∀ d, ws.get? (r d) = ws.get? d) → m'.weighted = m.weighted)) := by
  obtain ⟨ps, parts, a0, ab, a1, a2, a3, a4, a5, a6, a7⟩ := C66_counts hg hs h
  obtain ⟨ps', parts', b0, bb, b1, b2, b3, b4, b5, b6, b7⟩ := C66_counts hg' hs' h'
  obtain ⟨s1, s2, _⟩ := C26_common_spans hg hs h
  obtain ⟨t1, t2, _⟩ := C26_common_spans hg' hs' h'
  have hw := rg.words
  have hv := rs.words
  rw [alignWords_gold (hw.imp (fun a b e => e.look lower)), alignWords_congr (hv.imp (fun a b e => e.look lower)), b0] at a0
  injection a0 with a0
  subst a0
  rw [← hw.length_eq, ← hv.length_eq] at b1 b3 b4
  rw [← rg.tokens, ← rs.tokens] at t1
  rw [← rg.sentences, ← rs.sentences] at t2
  have hheads : ∀ g s g' s', OtherRelation r g g' → OtherRelation r s s' →
      (HeadsAgree ps' g s ↔ HeadsAgree ps' g' s') := by
    intro g s g' s' x y
    unfold HeadsAgree
    rw [x.parent, y.parent]
  rw [← pairsSat_both (pairSat_related_iff hw hv hheads)] at b3
  refine ⟨t1.unique s1, t2.unique s2, b1.unique a1, fun cols s s' hm hm' => ?_, b3.unique a3, ?_, fun hi => ?_⟩
  · have x := a2 cols s hm
    have y := b2 cols s' hm'
    have hc := byColumns_labels hm
    rw [← hw.length_eq, ← hv.length_eq, ← pairsSat_both (pairSat_related_iff (P := ColsAgree cols) hw hv ?_)] at y
    · exact y.unique x
    · intro g s g' s' k k'
      refine forall₂_congr (fun c hcc => ?_)
      rw [k.labels c (hc c hcc), k'.labels c (hc c hcc)]
  · refine isScore_le a4 b4 (pairsSat_more (fun p => pairSat_related hw hv ?_))
    rintro g s g' s' k k' ⟨x, y⟩
    refine ⟨(hheads g s g' s' k k').mp x, ?_⟩
    simp only [ColsAgree, List.mem_singleton, forall_eq] at y ⊢
    rw [k.relation, k'.relation, y]
  · have hrel : ∀ g s g' s', OtherRelation r g g' → OtherRelation r s s' →
        ((HeadsAgree ps' g s ∧ ColsAgree [colDEPREL] g s) ↔ (HeadsAgree ps' g' s' ∧ ColsAgree [colDEPREL] g' s')) := by
      intro g s g' s' k k'
      refine and_congr (hheads g s g' s' k k') ?_
      simp only [ColsAgree, List.mem_singleton, forall_eq, k.relation, k'.relation]
      exact ⟨fun e => by rw [e], fun e => hi e⟩
    have he := pairsSat_both (pairs := ps') (pairSat_related_iff hw hv hrel)
    rw [← he] at b4 b5
    refine ⟨b4.unique a4, fun hf => ?_, fun hws' => ?_⟩
    · have hcl : ∀ a b : UDWord, OtherRelation r a b → clasWeight a = clasWeight b := by
        intro a b k
        have := hf (colOf a.columns colDEPREL)
        unfold functionRelations at this
        unfold clasWeight
        rw [k.relation]
        simp only [this]
      rw [← related_weight hw hcl, ← related_weight hv hcl, ← related_goldWeight hw hcl, ← related_goldWeight hw hcl] at b5
      exact b5.unique a5
    · cases hws : weights with
      | none => rw [a6 hws, b6 hws]
      | some ws =>
        obtain ⟨s, e1, e2⟩ := a7 ws hws
        obtain ⟨t, f1, f2⟩ := b7 ws hws
        have ht : ∀ a b : UDWord, OtherRelation r a b → tableWeight ws a = tableWeight ws b := by
          intro a b k
          unfold tableWeight
          rw [k.relation, hws' ws hws]
        rw [← he, ← related_weight hw ht, ← related_weight hv ht, ← related_goldWeight hw ht, ← related_goldWeight hw ht] at f2
        rw [e1, f1, e2.unique f2]

/-! ### Examples -/

namespace Demo

/-- "nsubj" and "csubj" exchanged. -/
def swapSubj (d : Str) : Str :=
  if d = "nsubj".toList then "csubj".toList else if d = "csubj".toList then "nsubj".toList else d

theorem swapSubj_twice (d : Str) : swapSubj (swapSubj d) = d := by
  unfold swapSubj
  by_cases h : d = "nsubj".toList
  · subst h; decide
  · by_cases h' : d = "csubj".toList
    · subst h'; decide
    · rw [if_neg h, if_neg h', if_neg h, if_neg h']

/-- `relGold` with a clausal subject. -/
def relClause : Str :=
  "1\ta\t_\tX\t_\t_\t0\troot\t_\t_\n2\tb\t_\tY\t_\t_\t1\tcsubj\t_\t_\n3\tc\t_\tY\t_\t_\t1\tobj\t_\t_\n\n".toList

def relClauseUd : UD :=
  { characters := "abc".toList
    tokens := [⟨0, 1⟩, ⟨1, 2⟩, ⟨2, 3⟩]
    words := [⟨⟨0, 1⟩, row "1" "a" "X" "0" "root", false, .none⟩, ⟨⟨1, 2⟩, row "2" "b" "Y" "1" "csubj", false, .word 0⟩,
      ⟨⟨2, 3⟩, row "3" "c" "Y" "1" "obj", false, .word 0⟩]
    sentences := [⟨0, 3⟩] }

end Demo

example : Function.Injective Demo.swapSubj ∧ (∀ d, Demo.swapSubj d ∈ functionRelations ↔ d ∈ functionRelations) ∧
    Loaded Demo.relClauseUd ∧ OtherRelations Demo.swapSubj Demo.relGoldUd Demo.relClauseUd := by
  refine ⟨fun a b h => ?_, fun d => ?_, ⟨10, Demo.relClause, by decide +kernel⟩, ⟨rfl, rfl, rfl, ?_⟩⟩
  · rw [← Demo.swapSubj_twice a, h, Demo.swapSubj_twice b]
  · unfold Demo.swapSubj
    by_cases h : d = "nsubj".toList
    · subst h; decide
    · by_cases h' : d = "csubj".toList
      · subst h'; decide
      · rw [if_neg h, if_neg h']
  · exact .cons ⟨rfl, rfl, rfl, rfl, by decide, by decide⟩ (.cons ⟨rfl, rfl, rfl, rfl, by decide, by decide⟩
      (.cons ⟨rfl, rfl, rfl, rfl, by decide, by decide⟩ .nil))

end Verif
