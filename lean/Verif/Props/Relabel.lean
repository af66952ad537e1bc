import Verif.Spec.Relabel
import Verif.Props.EvalRel
import Verif.Proofs.UnscoredEval

/-!
# C173: other names for annotations
-/

namespace Verif

theorem Relabelled.look {f : Nat → Str → Str} {a b : UDWord} (h : Relabelled f a b) (lower : Str → Str) :
    SameLook lower a b := ⟨h.span, h.multi, by rw [h.form]⟩

/-- What holds for the words holds for the words with other names. -/
theorem relabel_pair {f : Nat → Str → Str} {gold gold' sys sys' : List UDWord} {P Q : UDWord → UDWord → Prop}
    (hg : List.Forall₂ (Relabelled f) gold gold') (hs : List.Forall₂ (Relabelled f) sys sys')
    (h : ∀ g s g' s', Relabelled f g g' → Relabelled f s s' → P g s → Q g' s') {p : Nat × Nat}
    (hp : PairSat gold sys P p) : PairSat gold' sys' Q p := by
  obtain ⟨g, s, h1, h2, h3⟩ := hp
  have hl := hg.length_eq
  have hl' := hs.length_eq
  obtain ⟨k1, e1⟩ := List.getElem?_eq_some_iff.1 h1
  obtain ⟨k2, e2⟩ := List.getElem?_eq_some_iff.1 h2
  have r1 := hg.get (i := p.1) k1 (hl ▸ k1)
  have r2 := hs.get (i := p.2) k2 (hl' ▸ k2)
  refine ⟨gold'[p.1]'(hl ▸ k1), sys'[p.2]'(hl' ▸ k2), List.getElem?_eq_getElem _, List.getElem?_eq_getElem _,
    h g s _ _ ?_ ?_ h3⟩
  · rw [← e1]; exact r1
  · rw [← e2]; exact r2

theorem relabel_back {f : Nat → Str → Str} {gold gold' sys sys' : List UDWord} {P Q : UDWord → UDWord → Prop}
    (hg : List.Forall₂ (Relabelled f) gold gold') (hs : List.Forall₂ (Relabelled f) sys sys')
    (h : ∀ g s g' s', Relabelled f g g' → Relabelled f s s' → Q g' s' → P g s) {p : Nat × Nat}
    (hp : PairSat gold' sys' Q p) : PairSat gold sys P p := by
  obtain ⟨g, s, h1, h2, h3⟩ := hp
  have hl := hg.length_eq
  have hl' := hs.length_eq
  obtain ⟨k1, e1⟩ := List.getElem?_eq_some_iff.1 h1
  obtain ⟨k2, e2⟩ := List.getElem?_eq_some_iff.1 h2
  have r1 := hg.get (i := p.1) (hl ▸ k1) k1
  have r2 := hs.get (i := p.2) (hl' ▸ k2) k2
  refine ⟨gold[p.1]'(hl ▸ k1), sys[p.2]'(hl' ▸ k2), List.getElem?_eq_getElem _, List.getElem?_eq_getElem _,
    h _ _ g s ?_ ?_ h3⟩
  · rw [← e1]; exact r1
  · rw [← e2]; exact r2

theorem pairsSat_both {gold gold' sys sys' : List UDWord} {P Q : UDWord → UDWord → Prop} {pairs : List (Nat × Nat)}
    (h : ∀ p, PairSat gold sys P p ↔ PairSat gold' sys' Q p) : pairsSat gold sys P pairs = pairsSat gold' sys' Q pairs := by
  classical
  unfold pairsSat
  apply List.filter_congr
  intro p _
  simp only [decide_eq_decide]
  exact h p

theorem pairsSat_more {gold gold' sys sys' : List UDWord} {P Q : UDWord → UDWord → Prop} {pairs : List (Nat × Nat)}
    (h : ∀ p, PairSat gold sys P p → PairSat gold' sys' Q p) :
    (pairsSat gold sys P pairs).length ≤ (pairsSat gold' sys' Q pairs).length := by
  classical
  unfold pairsSat
  refine List.Sublist.length_le (List.monotone_filter_right _ ?_)
  intro p hp
  simp only [decide_eq_true_eq] at hp ⊢
  exact h p hp

theorem relabel_weight {f : Nat → Str → Str} {ws vs : List UDWord} (h : List.Forall₂ (Relabelled f) ws vs)
    {wt : UDWord → Rat} (hwt : ∀ a b : UDWord, colOf a.columns colDEPREL = colOf b.columns colDEPREL → wt a = wt b) :
    wordsWeight wt ws = wordsWeight wt vs := by
  unfold wordsWeight
  congr 1
  refine List.forall₂_eq_eq_eq ▸ List.forall₂_map_left_iff.2 (List.forall₂_map_right_iff.2 ?_)
  exact h.imp (fun a b e => hwt a b e.relation.symm)

theorem relabel_goldWeight {f : Nat → Str → Str} {ws vs : List UDWord} (h : List.Forall₂ (Relabelled f) ws vs)
    {wt : UDWord → Rat} (hwt : ∀ a b : UDWord, colOf a.columns colDEPREL = colOf b.columns colDEPREL → wt a = wt b)
    (pairs : List (Nat × Nat)) : goldWeight wt ws pairs = goldWeight wt vs pairs := by
  unfold goldWeight
  congr 1
  refine List.map_congr_left (fun p _ => ?_)
  rcases sameLook_get (h.imp (fun a b e => e.look id)) p.1 with ⟨h1, h2⟩ | ⟨a, b, h1, h2, _⟩
  · rw [h1, h2]
  · rw [h1, h2]
    obtain ⟨k1, e1⟩ := List.getElem?_eq_some_iff.1 h1
    obtain ⟨k2, e2⟩ := List.getElem?_eq_some_iff.1 h2
    have r := h.get (i := p.1) k1 k2
    simp only [Option.map_some, Option.getD_some]
    refine hwt a b ?_
    rw [← e1, ← e2]
    exact r.relation.symm

theorem byColumns_labels {m : Metrics} {cols : List Nat} {s : Score} (h : (cols, s) ∈ m.byColumns) :
    ∀ c ∈ cols, c ∈ labelCols := by
  simp only [Metrics.byColumns, List.mem_cons, List.not_mem_nil, or_false, Prod.mk.injEq] at h
  rcases h with ⟨rfl, _⟩ | ⟨rfl, _⟩ | ⟨rfl, _⟩ | ⟨rfl, _⟩ | ⟨rfl, _⟩ <;> decide

/-- C173: if tags, features and lemmas are mapped in the same way in both files, e.g. to a coarser tag set, no score gets
lower; the scores that are not about them stay. -/
theorem C173_coarser {lower : Str → Str} {gold gold' sys sys' : UD} {weights : Option (Dict Str Rat)} {m m' : Metrics}
    (f : Nat → Str → Str) (hg : Loaded gold) (hs : Loaded sys) (hg' : Loaded gold') (hs' : Loaded sys')
    (rg : RelabelledUD f gold gold') (rs : RelabelledUD f sys sys')
    (h : evaluate lower gold sys weights = .ok m) (h' : evaluate lower gold' sys' weights = .ok m') :
    (∀ cols s s', (cols, s) ∈ m.byColumns → (cols, s') ∈ m'.byColumns → ScoreLe s s' ∧
      ((∀ c ∈ cols, Function.Injective (f c)) → s' = s)) ∧
    m'.tokens = m.tokens ∧ m'.sentences = m.sentences ∧ m'.words = m.words ∧ m'.uas = m.uas ∧ m'.las = m.las ∧
    m'.clas = m.clas ∧ m'.weighted = m.weighted := by
  obtain ⟨ps, parts, a0, ab, a1, a2, a3, a4, a5, a6, a7⟩ := C66_counts hg hs h
  obtain ⟨ps', parts', b0, bb, b1, b2, b3, b4, b5, b6, b7⟩ := C66_counts hg' hs' h'
  obtain ⟨s1, s2, _⟩ := C26_common_spans hg hs h
  obtain ⟨t1, t2, _⟩ := C26_common_spans hg' hs' h'
  have hw := rg.words
  have hv := rs.words
  rw [alignWords_gold (hw.imp (fun a b e => e.look lower)), alignWords_congr (hv.imp (fun a b e => e.look lower)), b0] at a0
  injection a0 with a0
  subst a0
  rw [← hw.length_eq, ← hv.length_eq] at b1 b3 b4
  rw [← rg.tokens, ← rs.tokens] at t1
  rw [← rg.sentences, ← rs.sentences] at t2
  have hheads : ∀ g s g' s', Relabelled f g g' → Relabelled f s s' → (HeadsAgree ps' g s ↔ HeadsAgree ps' g' s') := by
    intro g s g' s' r r'
    unfold HeadsAgree
    rw [r.parent, r'.parent]
  have hrel : ∀ g s g' s', Relabelled f g g' → Relabelled f s s' →
      ((HeadsAgree ps' g s ∧ ColsAgree [colDEPREL] g s) ↔ (HeadsAgree ps' g' s' ∧ ColsAgree [colDEPREL] g' s')) := by
    intro g s g' s' r r'
    refine and_congr (hheads g s g' s' r r') ?_
    simp only [ColsAgree, List.mem_singleton, forall_eq, r.relation, r'.relation]
  have he := pairsSat_both (pairs := ps') (fun p => ⟨relabel_pair hw hv (fun g s g' s' r r' => (hheads g s g' s' r r').mp),
    relabel_back hw hv (fun g s g' s' r r' => (hheads g s g' s' r r').mpr)⟩)
  have he' := pairsSat_both (pairs := ps') (fun p => ⟨relabel_pair hw hv (fun g s g' s' r r' => (hrel g s g' s' r r').mp),
    relabel_back hw hv (fun g s g' s' r r' => (hrel g s g' s' r r').mpr)⟩)
  rw [← he] at b3
  rw [← he'] at b4 b5
  have hclas : ∀ a b : UDWord, colOf a.columns colDEPREL = colOf b.columns colDEPREL → clasWeight a = clasWeight b :=
    fun a b e => by simp only [clasWeight, e]
  rw [← relabel_weight hw hclas, ← relabel_weight hv hclas, ← relabel_goldWeight hw hclas, ← relabel_goldWeight hw hclas] at b5
  refine ⟨fun cols s s' hm hm' => ?_, t1.unique s1, t2.unique s2, b1.unique a1, b3.unique a3, b4.unique a4, b5.unique a5, ?_⟩
  · have x := a2 cols s hm
    have y := b2 cols s' hm'
    have hc := byColumns_labels hm
    rw [← hw.length_eq, ← hv.length_eq] at y
    have hto : ∀ g s g' s', Relabelled f g g' → Relabelled f s s' → ColsAgree cols g s → ColsAgree cols g' s' := by
      intro g s g' s' r r' k c hcc
      rw [r.labels c (hc c hcc), r'.labels c (hc c hcc), k c hcc]
    refine ⟨isScore_le x y (pairsSat_more (fun p => relabel_pair hw hv hto)), fun hi => ?_⟩
    rw [← pairsSat_both (P := ColsAgree cols) (gold := gold.words) (sys := sys.words)] at y
    · exact y.unique x
    · intro p
      refine ⟨relabel_pair hw hv hto, relabel_back hw hv ?_⟩
      intro g s g' s' r r' k c hcc
      have := k c hcc
      rw [r.labels c (hc c hcc), r'.labels c (hc c hcc)] at this
      exact hi c hcc this
  · cases hws : weights with
    | none => rw [a6 hws, b6 hws]
    | some ws =>
      obtain ⟨s, e1, e2⟩ := a7 ws hws
      obtain ⟨t, f1, f2⟩ := b7 ws hws
      have ht : ∀ a b : UDWord, colOf a.columns colDEPREL = colOf b.columns colDEPREL →
          tableWeight ws a = tableWeight ws b := fun a b e => by simp only [tableWeight, e]
      rw [← he', ← relabel_weight hw ht, ← relabel_weight hv ht, ← relabel_goldWeight hw ht, ← relabel_goldWeight hw ht] at f2
      rw [e1, f1, e2.unique f2]

/-- C173: the names of tags, features and lemmas do not matter: if different ones stay different, all scores are the same;
and if the files cannot be compared, they cannot with the other names. -/
theorem C173_renamed (lower : Str → Str) {gold gold' sys sys' : UD} (weights : Option (Dict Str Rat))
    (f : Nat → Str → Str) (hf : ∀ c ∈ labelCols, Function.Injective (f c))
    (hg : Loaded gold) (hs : Loaded sys) (hg' : Loaded gold') (hs' : Loaded sys')
    (rg : RelabelledUD f gold gold') (rs : RelabelledUD f sys sys') :
    evaluate lower gold' sys' weights = evaluate lower gold sys weights := by
  by_cases hc : gold.characters = sys.characters
  · obtain ⟨m, hm⟩ := (C28_total lower weights hg hs).1 hc
    obtain ⟨m', hm'⟩ := (C28_total lower weights hg' hs').1 (by rw [← rg.characters, ← rs.characters, hc])
    obtain ⟨h0, h1, h2, h3, h4, h5, h6, h7⟩ := C173_coarser f hg hs hg' hs' rg rs hm hm'
    have hcol : ∀ cols s s', (cols, s) ∈ m.byColumns → (cols, s') ∈ m'.byColumns → s' = s := by
      intro cols s s' k k'
      exact (h0 cols s s' k k').2 (fun c hcc => hf c (byColumns_labels k c hcc))
    have x1 := hcol [colUPOS] m.upos m'.upos (by simp [Metrics.byColumns]) (by simp [Metrics.byColumns])
    have x2 := hcol [colXPOS] m.xpos m'.xpos (by simp [Metrics.byColumns]) (by simp [Metrics.byColumns])
    have x3 := hcol [colFEATS] m.feats m'.feats (by simp [Metrics.byColumns]) (by simp [Metrics.byColumns])
    have x4 := hcol [colUPOS, colXPOS, colFEATS] m.allTags m'.allTags (by simp [Metrics.byColumns])
      (by simp [Metrics.byColumns])
    have x5 := hcol [colLEMMA] m.lemmas m'.lemmas (by simp [Metrics.byColumns]) (by simp [Metrics.byColumns])
    rw [hm, hm']
    cases m
    cases m'
    simp only at h1 h2 h3 h4 h5 h6 h7 x1 x2 x3 x4 x5
    subst h1 h2 h3 h4 h5 h6 h7 x1 x2 x3 x4 x5
    rfl
  · rw [(C28_total lower weights hg hs).2 hc,
      (C28_total lower weights hg' hs').2 (by rw [← rg.characters, ← rs.characters]; exact hc)]

/-! ### Examples -/

namespace Demo

/-- One sentence of the words "a", "b" and "c" with these tags. -/
def tagsText (x y z : String) : Str :=
  ("1\ta\t_\t" ++ x ++ "\t_\t_\t0\troot\t_\t_\n2\tb\t_\t" ++ y ++ "\t_\t_\t1\tnsubj\t_\t_\n3\tc\t_\t" ++ z ++
    "\t_\t_\t1\tobj\t_\t_\n\n").toList

def tagsUd (x y z : String) : UD :=
  { characters := "abc".toList
    tokens := [⟨0, 1⟩, ⟨1, 2⟩, ⟨2, 3⟩]
    words := [⟨⟨0, 1⟩, row "1" "a" x "0" "root", false, .none⟩, ⟨⟨1, 2⟩, row "2" "b" y "1" "nsubj", false, .word 0⟩,
      ⟨⟨2, 3⟩, row "3" "c" z "1" "obj", false, .word 0⟩]
    sentences := [⟨0, 3⟩] }

/-- "Z" is no longer distinguished from "Y". -/
def mergeTags (_ : Nat) (s : Str) : Str := if s = "Z".toList then "Y".toList else s

end Demo

/-- With "Y" for "Z" the tags are no longer different. -/
example : Loaded (Demo.tagsUd "X" "Y" "Y") ∧ Loaded (Demo.tagsUd "X" "Z" "X") ∧ Loaded (Demo.tagsUd "X" "Y" "X") ∧
    RelabelledUD Demo.mergeTags (Demo.tagsUd "X" "Y" "Y") (Demo.tagsUd "X" "Y" "Y") ∧
    RelabelledUD Demo.mergeTags (Demo.tagsUd "X" "Z" "X") (Demo.tagsUd "X" "Y" "X") ∧
    (evaluate id (Demo.tagsUd "X" "Y" "Y") (Demo.tagsUd "X" "Z" "X") none).map (fun m => m.upos.f1) = .ok (1 / 3) ∧
    (evaluate id (Demo.tagsUd "X" "Y" "Y") (Demo.tagsUd "X" "Y" "X") none).map (fun m => m.upos.f1) = .ok (2 / 3) := by
  refine ⟨⟨10, Demo.tagsText "X" "Y" "Y", by decide +kernel⟩, ⟨10, Demo.tagsText "X" "Z" "X", by decide +kernel⟩,
    ⟨10, Demo.tagsText "X" "Y" "X", by decide +kernel⟩, ⟨rfl, rfl, rfl, ?_⟩, ⟨rfl, rfl, rfl, ?_⟩, by decide +kernel,
    by decide +kernel⟩
  · exact .cons ⟨rfl, rfl, rfl, rfl, rfl, by decide⟩ (.cons ⟨rfl, rfl, rfl, rfl, rfl, by decide⟩
      (.cons ⟨rfl, rfl, rfl, rfl, rfl, by decide⟩ .nil))
  · exact .cons ⟨rfl, rfl, rfl, rfl, rfl, by decide⟩ (.cons ⟨rfl, rfl, rfl, rfl, rfl, by decide⟩
      (.cons ⟨rfl, rfl, rfl, rfl, rfl, by decide⟩ .nil))

namespace Demo

/-- "q" before every tag. -/
def markTags (c : Nat) (s : Str) : Str := if c = colUPOS then 'q' :: s else s

end Demo

/-- Tags with a mark are other names. -/
example : (∀ c ∈ labelCols, Function.Injective (Demo.markTags c)) ∧ Loaded (Demo.tagsUd "qX" "qY" "qY") ∧
    RelabelledUD Demo.markTags (Demo.tagsUd "X" "Y" "Y") (Demo.tagsUd "qX" "qY" "qY") := by
  refine ⟨?_, ⟨10, Demo.tagsText "qX" "qY" "qY", by decide +kernel⟩, ⟨rfl, rfl, rfl, ?_⟩⟩
  · intro c _ a b h
    unfold Demo.markTags at h
    split at h
    · exact List.cons.inj h |>.2
    · exact h
  · exact .cons ⟨rfl, rfl, rfl, rfl, rfl, by decide⟩ (.cons ⟨rfl, rfl, rfl, rfl, rfl, by decide⟩
      (.cons ⟨rfl, rfl, rfl, rfl, rfl, by decide⟩ .nil))

end Verif
