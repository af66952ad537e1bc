import Verif.Proofs.Lcs

/-!
# Proofs about the word alignment
-/

namespace Verif

/-- All words have non-empty spans. -/
def NonEmptySpans (words : List UDWord) : Prop := ∀ w ∈ words, w.span.start < w.span.stop

theorem NonEmptySpans.get {words : List UDWord} (h : NonEmptySpans words) {i : Nat} {w : UDWord}
    (hw : words[i]? = some w) : w.span.start < w.span.stop := h w (List.mem_of_getElem? hw)

theorem beyondEnd_iff {words : List UDWord} {i e : Nat} : beyondEnd words i e = true ↔ PastEnd words i e := by
  unfold beyondEnd PastEnd
  cases h : words[i]? with
  | none => simp
  | some w =>
    simp only [Option.some.injEq, forall_eq']
    cases w.multi <;> simp

theorem extendEnd_ge (w : UDWord) (e : Nat) : e ≤ extendEnd w e := by
  unfold extendEnd
  split
  · rename_i h; simp at h; omega
  · exact Nat.le_refl _

theorem extendEnd_stop {w : UDWord} (e : Nat) (h : w.multi = true) : w.span.stop ≤ extendEnd w e := by
  unfold extendEnd
  rw [h]
  by_cases h' : w.span.stop > e
  · simp [h']
  · simp [h']; omega

theorem extendEnd_cases (w : UDWord) (e : Nat) : extendEnd w e = e ∨ (w.multi = true ∧ extendEnd w e = w.span.stop) := by
  unfold extendEnd
  split
  · rename_i h; simp at h; exact .inr ⟨h.1, rfl⟩
  · exact .inl rfl

theorem takeGold_spec {gold sys : List UDWord} {gi si : Nat} (h : gi < gold.length ∨ si < sys.length) :
    (∃ g, gold[gi]? = some g ∧ takeGold gold sys gi si = .ok true ∧ ∀ s, sys[si]? = some s → g.span.start ≤ s.span.start) ∨
    (∃ s, sys[si]? = some s ∧ takeGold gold sys gi si = .ok false ∧ ∀ g, gold[gi]? = some g → s.span.start < g.span.start) := by
  unfold takeGold
  by_cases hg : gi < gold.length
  · rw [if_pos hg]
    by_cases hs : si ≥ sys.length
    · rw [if_pos hs]
      exact .inl ⟨gold[gi], by simp [hg], rfl, by intro s h'; rw [List.getElem?_eq_none hs] at h'; cases h'⟩
    · rw [if_neg hs]
      have hs' : si < sys.length := by omega
      simp only [wordAt, List.getElem?_eq_getElem hg, List.getElem?_eq_getElem hs']
      by_cases hle : gold[gi].span.start ≤ sys[si].span.start
      · exact .inl ⟨_, rfl, by simp [hle], by intro s h'; injection h' with h'; rw [← h']; exact hle⟩
      · exact .inr ⟨_, rfl, by simp [hle], by intro s h'; injection h' with h'; rw [← h']; omega⟩
  · rw [if_neg hg]
    have hs' : si < sys.length := by omega
    exact .inr ⟨sys[si], by simp [hs'], rfl, by
      intro g h'; rw [List.getElem?_eq_none (by omega)] at h'; cases h'⟩

/-- A word that is not beyond `e` starts before `e`. -/
theorem start_lt_of_not_past {words : List UDWord} (hne : NonEmptySpans words) {i e : Nat}
    (h : ¬ PastEnd words i e) : ∃ w, words[i]? = some w ∧ w.span.start < e := by
  unfold PastEnd at h
  push Not at h
  obtain ⟨w, hw, h⟩ := h
  refine ⟨w, hw, ?_⟩
  by_cases h1 : w.multi = true → e ≤ w.span.start
  · obtain ⟨_, h2⟩ := h h1
    have := hne.get hw
    omega
  · push Not at h1
    exact h1.2

theorem AllWithin.mono {words : List UDWord} {a b e e' : Nat} (h : AllWithin words a b e) (he : e ≤ e') :
    AllWithin words a b e' := by
  intro i w h1 h2 h3
  obtain ⟨q1, q2⟩ := h i w h1 h2 h3
  exact ⟨by omega, fun hm => by have := q2 hm; omega⟩

theorem spanLoop_spec {gold sys : List UDWord} (hg : NonEmptySpans gold) (hs : NonEmptySpans sys) :
    ∀ (fuel gi si e : Nat), gi ≤ gold.length → si ≤ sys.length →
      (gold.length - gi) + (sys.length - si) < fuel →
    ∃ gi' si' e', spanLoop gold sys fuel gi si e = .ok (gi', si') ∧ gi ≤ gi' ∧ gi' ≤ gold.length ∧ si ≤ si' ∧
      si' ≤ sys.length ∧ e ≤ e' ∧ PastEnd gold gi' e' ∧ PastEnd sys si' e' ∧
      AllWithin gold gi gi' e' ∧ AllWithin sys si si' e' ∧
      (e' = e ∨ MultiEnds gold gi gi' e' ∨ MultiEnds sys si si' e') := by
  intro fuel
  induction fuel with
  | zero => intro gi si e _ _ h; omega
  | succ fuel ih =>
    intro gi si e hgi hsi hf
    rw [spanLoop]
    by_cases hc : (!beyondEnd gold gi e || !beyondEnd sys si e) = true
    · rw [if_pos hc]
      have hc' : ¬ PastEnd gold gi e ∨ ¬ PastEnd sys si e := by
        rw [← beyondEnd_iff, ← beyondEnd_iff]
        simpa using hc
      have hlt : gi < gold.length ∨ si < sys.length := by
        rcases hc' with h | h
        · obtain ⟨w, hw, _⟩ := start_lt_of_not_past hg h
          exact .inl (List.getElem?_eq_some_iff.1 hw).1
        · obtain ⟨w, hw, _⟩ := start_lt_of_not_past hs h
          exact .inr (List.getElem?_eq_some_iff.1 hw).1
      rcases takeGold_spec hlt with ⟨g, h1, h2, h3⟩ | ⟨s, h1, h2, h3⟩
      · have hgl := (List.getElem?_eq_some_iff.1 h1).1
        rw [h2]
        simp only [wordAt, h1]
        have hst : g.span.start < e := by
          rcases hc' with h | h
          · obtain ⟨w, hw, hlt⟩ := start_lt_of_not_past hg h
            rw [h1] at hw; injection hw with hw; rw [hw]; exact hlt
          · obtain ⟨w, hw, hlt⟩ := start_lt_of_not_past hs h
            have := h3 w hw
            omega
        obtain ⟨gi', si', e', q1, q2, q3, q4, q5, q6, q7, q8, q9, q10, q11⟩ :=
          ih (gi + 1) si (extendEnd g e) (by omega) hsi (by omega)
        have hge := extendEnd_ge g e
        refine ⟨gi', si', e', q1, by omega, q3, q4, q5, by omega, q7, q8, ?_, q10, ?_⟩
        · intro i w hi1 hi2 hw
          by_cases hii : i = gi
          · subst hii
            rw [h1] at hw; injection hw with hw; subst hw
            exact ⟨by omega, fun hm => by have := extendEnd_stop e hm; omega⟩
          · exact q9 i w (by omega) hi2 hw
        · rcases q11 with e1 | ⟨i, w, b1, b2⟩ | e1
          · rcases extendEnd_cases g e with e2 | ⟨e2, e3⟩
            · exact .inl (by rw [e1, e2])
            · exact .inr (.inl ⟨gi, g, Nat.le_refl _, by omega, h1, e2, by rw [e1, e3]⟩)
          · exact .inr (.inl ⟨i, w, by omega, b2⟩)
          · exact .inr (.inr e1)
      · have hsl := (List.getElem?_eq_some_iff.1 h1).1
        rw [h2]
        simp only [wordAt, h1]
        have hst : s.span.start < e := by
          rcases hc' with h | h
          · obtain ⟨w, hw, hlt⟩ := start_lt_of_not_past hg h
            have := h3 w hw
            omega
          · obtain ⟨w, hw, hlt⟩ := start_lt_of_not_past hs h
            rw [h1] at hw; injection hw with hw; rw [hw]; exact hlt
        obtain ⟨gi', si', e', q1, q2, q3, q4, q5, q6, q7, q8, q9, q10, q11⟩ :=
          ih gi (si + 1) (extendEnd s e) hgi (by omega) (by omega)
        have hge := extendEnd_ge s e
        refine ⟨gi', si', e', q1, q2, q3, by omega, q5, by omega, q7, q8, q9, ?_, ?_⟩
        · intro i w hi1 hi2 hw
          by_cases hii : i = si
          · subst hii
            rw [h1] at hw; injection hw with hw; subst hw
            exact ⟨by omega, fun hm => by have := extendEnd_stop e hm; omega⟩
          · exact q10 i w (by omega) hi2 hw
        · rcases q11 with e1 | e1 | ⟨i, w, b1, b2⟩
          · rcases extendEnd_cases s e with e2 | ⟨e2, e3⟩
            · exact .inl (by rw [e1, e2])
            · exact .inr (.inr ⟨si, s, Nat.le_refl _, by omega, h1, e2, by rw [e1, e3]⟩)
          · exact .inr (.inl e1)
          · exact .inr (.inr ⟨i, w, by omega, b2⟩)
    · rw [if_neg hc]
      have hc' : PastEnd gold gi e ∧ PastEnd sys si e := by
        rw [← beyondEnd_iff, ← beyondEnd_iff]
        simpa using hc
      exact ⟨gi, si, e, rfl, Nat.le_refl _, hgi, Nat.le_refl _, hsi, Nat.le_refl _, hc'.1, hc'.2,
        by intro i w h1 h2; omega, by intro i w h1 h2; omega, .inl rfl⟩

theorem not_past_multi {words : List UDWord} {i e : Nat} {w : UDWord} (hw : words[i]? = some w) (hm : w.multi = true)
    (h : w.span.start < e) : ¬ PastEnd words i e := by
  intro hp
  have := (hp w hw).1 hm
  omega

/-- What `find_multiword_span` returns. -/
theorem findMultiwordSpan_spec {gold sys : List UDWord} (hg : NonEmptySpans gold) (hs : NonEmptySpans sys)
    {gi si : Nat} {g s : UDWord} (h1 : gold[gi]? = some g) (h2 : sys[si]? = some s)
    (hm : (g.multi || s.multi) = true) :
    ∃ gs ss gi' si' e, findMultiwordSpan gold sys gi si = .ok (gs, ss, gi', si') ∧
      gi ≤ gs ∧ gs ≤ gi' ∧ gi' ≤ gold.length ∧ si ≤ ss ∧ ss ≤ si' ∧ si' ≤ sys.length ∧ gi + si < gi' + si' ∧
      (gs = gi ∨ g.multi = false) ∧ gs ≤ gi + 1 ∧ (ss = si ∨ s.multi = false) ∧ ss ≤ si + 1 ∧
      (MultiEnds gold gs gi' e ∨ MultiEnds sys ss si' e) ∧ AllWithin gold gs gi' e ∧ AllWithin sys ss si' e ∧
      PastEnd gold gi' e ∧ PastEnd sys si' e := by
  have hgl := (List.getElem?_eq_some_iff.1 h1).1
  have hsl := (List.getElem?_eq_some_iff.1 h2).1
  unfold findMultiwordSpan
  simp only [wordAt, h1, h2]
  by_cases hgm : g.multi = true
  · rw [hgm]
    simp only [if_true]
    generalize hss : (if (!s.multi && decide (s.span.start < g.span.start)) = true then si + 1 else si) = ss
    have hb : (ss = si ∨ s.multi = false) ∧ si ≤ ss ∧ ss ≤ si + 1 := by
      split at hss
      · rename_i h; simp at h; exact ⟨.inr h.1, by omega, by omega⟩
      · exact ⟨.inl hss.symm, by omega, by omega⟩
    obtain ⟨b1, b2, b3⟩ := hb
    obtain ⟨gi', si', e', q1, q2, q3, q4, q5, q6, q7, q8, q9, q10, q11⟩ :=
      spanLoop_spec hg hs (gold.length + sys.length + 1) gi ss g.span.stop (by omega) (by omega) (by omega)
    rw [q1]
    have hlt := hg.get h1
    have hne : gi' ≠ gi := by
      rintro rfl
      exact not_past_multi h1 hgm (by omega) q7
    refine ⟨gi, ss, gi', si', e', rfl, Nat.le_refl _, q2, q3, b2, q4, q5, by omega, .inl rfl, by omega, b1, b3, ?_,
      q9, q10, q7, q8⟩
    rcases q11 with e1 | e1
    · exact .inl ⟨gi, g, Nat.le_refl _, by omega, h1, hgm, e1.symm⟩
    · exact e1
  · have hgm' : g.multi = false := by simpa using hgm
    have hsm : s.multi = true := by simpa [hgm'] using hm
    rw [hgm']
    simp only [Bool.false_eq_true, if_false]
    generalize hgs : (if (!false && decide (g.span.start < s.span.start)) = true then gi + 1 else gi) = gs
    have hb : gi ≤ gs ∧ gs ≤ gi + 1 := by
      split at hgs <;> exact ⟨by omega, by omega⟩
    obtain ⟨gi', si', e', q1, q2, q3, q4, q5, q6, q7, q8, q9, q10, q11⟩ :=
      spanLoop_spec hg hs (gold.length + sys.length + 1) gs si s.span.stop (by omega) (by omega) (by omega)
    rw [q1]
    have hlt := hs.get h2
    have hne : si' ≠ si := by
      rintro rfl
      exact not_past_multi h2 hsm (by omega) q8
    refine ⟨gs, si, gi', si', e', rfl, hb.1, q2, q3, Nat.le_refl _, q4, q5, by omega, .inr trivial, by omega, .inl rfl, by omega,
      ?_, q9, q10, q7, q8⟩
    rcases q11 with e1 | e1
    · exact .inr ⟨si, s, Nat.le_refl _, by omega, h2, hsm, e1.symm⟩
    · exact e1

theorem forms_eq (lower : Str → Str) (words : List UDWord) (a b : Nat) :
    forms lower words a b = lowerForms lower words a b := by
  simp [forms, lowerForms, slice, UDWord.col, List.drop_take]

theorem lowerForms_length (lower : Str → Str) (words : List UDWord) {a b : Nat} (hb : b ≤ words.length) :
    (lowerForms lower words a b).length = b - a := by
  simp [lowerForms, Nat.min_eq_left hb]

theorem alignSpan_spec (lower : Str → Str) (gold sys : List UDWord) (gs ss gi si : Nat) :
    ∃ l, alignSpan lower gold sys gs ss gi si = .ok (l.map (fun p => (gs + p.1, ss + p.2))) ∧
      IsLongest (lowerForms lower gold gs gi) (lowerForms lower sys ss si) l := by
  unfold alignSpan
  split
  · simp only
    obtain ⟨l, h1, h2⟩ := lcsWalk_longest (forms lower gold gs gi) (forms lower sys ss si)
    rw [h1]
    rw [forms_eq, forms_eq] at h2
    exact ⟨l, rfl, h2⟩
  · rename_i h
    refine ⟨[], rfl, ⟨.nil, by simp⟩, ?_⟩
    intro l' hl'
    cases l' with
    | nil => simp
    | cons p l' =>
      exfalso
      obtain ⟨x, hx, hy⟩ := hl'.2 p (by simp)
      have e1 := (List.getElem?_eq_some_iff.1 hx).1
      have e2 := (List.getElem?_eq_some_iff.1 hy).1
      simp only [lowerForms, List.length_map, List.length_drop, List.length_take] at e1 e2
      omega

theorem alignLoop_spec (lower : Str → Str) {gold sys : List UDWord} (hg : NonEmptySpans gold) (hs : NonEmptySpans sys) :
    ∀ (fuel gi si : Nat), (gold.length - gi) + (sys.length - si) < fuel →
    ∃ (pairs : List (Nat × Nat)) (parts : List Part), alignLoop lower gold sys fuel gi si = .ok pairs ∧
      (∀ p ∈ parts, SinglePart gold sys p ∨ MultiPart lower gold sys p) ∧
      parts.Pairwise (fun p q => p.gi ≤ q.gs ∧ p.si ≤ q.ss) ∧ pairs = parts.flatMap Part.pairs ∧
      (∀ p ∈ parts, gi ≤ p.gs ∧ si ≤ p.ss) ∧
      ∃ G S, (gold.length ≤ G ∨ sys.length ≤ S) ∧
        (∀ i w, gi ≤ i → i < G → gold[i]? = some w → w.multi = true → ∃ p ∈ parts, p.gs ≤ i ∧ i < p.gi) ∧
        (∀ i w, si ≤ i → i < S → sys[i]? = some w → w.multi = true → ∃ p ∈ parts, p.ss ≤ i ∧ i < p.si) := by
  intro fuel
  induction fuel with
  | zero => intro gi si h; omega
  | succ fuel ih =>
    intro gi si hf
    rw [alignLoop]
    cases h1 : gold[gi]? with
    | none =>
      refine ⟨[], [], rfl, by simp, .nil, rfl, by simp, gi, si, .inl (List.getElem?_eq_none_iff.1 h1), ?_, ?_⟩ <;>
        (intro i w a b; omega)
    | some g =>
      cases h2 : sys[si]? with
      | none =>
        refine ⟨[], [], rfl, by simp, .nil, rfl, by simp, gi, si, .inr (List.getElem?_eq_none_iff.1 h2), ?_, ?_⟩ <;>
          (intro i w a b; omega)
      | some s =>
        have hgl := (List.getElem?_eq_some_iff.1 h1).1
        have hsl := (List.getElem?_eq_some_iff.1 h2).1
        simp only
        by_cases hm : (g.multi || s.multi) = true
        · rw [if_pos hm]
          obtain ⟨gs, ss, gi', si', e, f1, f2, f3, f4, f5, f6, f7, f8, f9, f10, f11, f12, f13, f14, f15, f16, f17⟩ :=
            findMultiwordSpan_spec hg hs h1 h2 hm
          rw [f1]
          simp only
          obtain ⟨l, a1, a2⟩ := alignSpan_spec lower gold sys gs ss gi' si'
          rw [a1]
          simp only
          obtain ⟨pairs, parts, r1, r2, r3, r4, r5, G, S, r6, r7, r8⟩ := ih gi' si' (by omega)
          rw [r1]
          refine ⟨_, ⟨gs, gi', ss, si', l.map (fun p => (gs + p.1, ss + p.2))⟩ :: parts, rfl, ?_, ?_, ?_, ?_, G, S, r6,
            ?_, ?_⟩
          · intro p hp
            rcases List.mem_cons.1 hp with rfl | hp
            · exact .inr ⟨f3, f4, f6, f7, ⟨e, f13, f14, f15, f16, f17⟩, l, rfl, a2⟩
            · exact r2 p hp
          · exact List.pairwise_cons.2 ⟨fun q hq => r5 q hq, r3⟩
          · rw [List.flatMap_cons, r4]
          · intro p hp
            rcases List.mem_cons.1 hp with rfl | hp
            · exact ⟨f2, f5⟩
            · have := r5 p hp; omega
          · intro i w hi1 hi2 hw hwm
            by_cases hi : i < gi'
            · refine ⟨_, List.mem_cons_self, ?_, hi⟩
              rcases f9 with e1 | e1
              · show gs ≤ i; omega
              · show gs ≤ i
                by_cases hii : i = gi
                · subst hii; rw [h1] at hw; injection hw with hw; subst hw; rw [e1] at hwm; cases hwm
                · omega
            · obtain ⟨p, hp, hp'⟩ := r7 i w (by omega) hi2 hw hwm
              exact ⟨p, List.mem_cons_of_mem _ hp, hp'⟩
          · intro i w hi1 hi2 hw hwm
            by_cases hi : i < si'
            · refine ⟨_, List.mem_cons_self, ?_, hi⟩
              rcases f11 with e1 | e1
              · show ss ≤ i; omega
              · show ss ≤ i
                by_cases hii : i = si
                · subst hii; rw [h2] at hw; injection hw with hw; subst hw; rw [e1] at hwm; cases hwm
                · omega
            · obtain ⟨p, hp, hp'⟩ := r8 i w (by omega) hi2 hw hwm
              exact ⟨p, List.mem_cons_of_mem _ hp, hp'⟩
        · rw [if_neg hm]
          have hgm : g.multi = false := by simp at hm; exact hm.1
          have hsm : s.multi = false := by simp at hm; exact hm.2
          split
          · rename_i hspan
            obtain ⟨pairs, parts, r1, r2, r3, r4, r5, G, S, r6, r7, r8⟩ := ih (gi + 1) (si + 1) (by omega)
            rw [r1]
            refine ⟨_, ⟨gi, gi + 1, si, si + 1, [(gi, si)]⟩ :: parts, rfl, ?_, ?_, ?_, ?_, G, S, r6, ?_, ?_⟩
            · intro p hp
              rcases List.mem_cons.1 hp with rfl | hp
              · refine .inl ⟨rfl, rfl, rfl, g, s, h1, h2, hgm, hsm, ?_⟩
                cases hg' : g.span; cases hs' : s.span
                rw [hg', hs'] at hspan
                simp only at hspan
                rw [hspan.1, hspan.2]
              · exact r2 p hp
            · exact List.pairwise_cons.2 ⟨fun q hq => r5 q hq, r3⟩
            · rw [List.flatMap_cons, r4]; rfl
            · intro p hp
              rcases List.mem_cons.1 hp with rfl | hp
              · exact ⟨Nat.le_refl _, Nat.le_refl _⟩
              · have := r5 p hp; omega
            · intro i w hi1 hi2 hw hwm
              by_cases hi : i < gi + 1
              · exact ⟨_, List.mem_cons_self, hi1, hi⟩
              · obtain ⟨p, hp, hp'⟩ := r7 i w (by omega) hi2 hw hwm
                exact ⟨p, List.mem_cons_of_mem _ hp, hp'⟩
            · intro i w hi1 hi2 hw hwm
              by_cases hi : i < si + 1
              · exact ⟨_, List.mem_cons_self, hi1, hi⟩
              · obtain ⟨p, hp, hp'⟩ := r8 i w (by omega) hi2 hw hwm
                exact ⟨p, List.mem_cons_of_mem _ hp, hp'⟩
          · split
            · obtain ⟨pairs, parts, r1, r2, r3, r4, r5, G, S, r6, r7, r8⟩ := ih (gi + 1) si (by omega)
              refine ⟨pairs, parts, r1, r2, r3, r4, fun p hp => by have := r5 p hp; omega, G, S, r6, ?_, r8⟩
              intro i w hi1 hi2 hw hwm
              by_cases hi : i = gi
              · subst hi; rw [h1] at hw; injection hw with hw; subst hw; rw [hgm] at hwm; cases hwm
              · exact r7 i w (by omega) hi2 hw hwm
            · obtain ⟨pairs, parts, r1, r2, r3, r4, r5, G, S, r6, r7, r8⟩ := ih gi (si + 1) (by omega)
              refine ⟨pairs, parts, r1, r2, r3, r4, fun p hp => by have := r5 p hp; omega, G, S, r6, r7, ?_⟩
              intro i w hi1 hi2 hw hwm
              by_cases hi : i = si
              · subst hi; rw [h2] at hw; injection hw with hw; subst hw; rw [hsm] at hwm; cases hwm
              · exact r8 i w (by omega) hi2 hw hwm

theorem alignWords_spec (lower : Str → Str) {gold sys : List UDWord} (hg : NonEmptySpans gold) (hs : NonEmptySpans sys) :
    ∃ pairs parts, alignWords lower gold sys = .ok pairs ∧ AlignedBy lower gold sys parts pairs := by
  obtain ⟨pairs, parts, r1, r2, r3, r4, r5, G, S, r6, r7, r8⟩ :=
    alignLoop_spec lower hg hs (gold.length + sys.length + 1) 0 0 (by omega)
  exact ⟨pairs, parts, r1, r2, r3, r4, G, S, r6, fun i w h => r7 i w (Nat.zero_le _) h,
    fun i w h => r8 i w (Nat.zero_le _) h⟩

/-! ### Consequences -/

theorem part_pairs {lower : Str → Str} {gold sys : List UDWord} {p : Part}
    (h : SinglePart gold sys p ∨ MultiPart lower gold sys p) :
    p.pairs.Pairwise (fun a b => a.1 < b.1 ∧ a.2 < b.2) ∧
    ∀ q ∈ p.pairs, p.gs ≤ q.1 ∧ q.1 < p.gi ∧ p.ss ≤ q.2 ∧ q.2 < p.si ∧ q.1 < gold.length ∧ q.2 < sys.length := by
  rcases h with ⟨h1, h2, h3, g, s, h4, h5, _⟩ | ⟨h1, h2, h3, h4, _, l, h5, h6⟩
  · rw [h3]
    refine ⟨by simp, ?_⟩
    intro q hq
    rw [List.mem_singleton.1 hq, h1, h2]
    have := (List.getElem?_eq_some_iff.1 h4).1
    have := (List.getElem?_eq_some_iff.1 h5).1
    simp only
    omega
  · rw [h5]
    constructor
    · rw [List.pairwise_map]
      exact h6.1.1.imp (fun {a b} h => by simp only; omega)
    · intro q hq
      obtain ⟨r, hr, rfl⟩ := List.mem_map.1 hq
      obtain ⟨x, hx, hy⟩ := h6.1.2 r hr
      have e1 := (List.getElem?_eq_some_iff.1 hx).1
      have e2 := (List.getElem?_eq_some_iff.1 hy).1
      rw [lowerForms_length _ _ (by omega)] at e1 e2
      simp only
      omega

theorem AlignedBy.increasing {lower : Str → Str} {gold sys : List UDWord} {parts : List Part} {pairs : List (Nat × Nat)}
    (h : AlignedBy lower gold sys parts pairs) : pairs.Pairwise (fun a b => a.1 < b.1 ∧ a.2 < b.2) := by
  rw [h.pairs]
  have h1 := h.each
  have h2 := h.ordered
  clear h
  induction parts with
  | nil => exact .nil
  | cons p parts ih =>
    obtain ⟨o1, o2⟩ := List.pairwise_cons.1 h2
    rw [List.flatMap_cons, List.pairwise_append]
    obtain ⟨q1, q2⟩ := part_pairs (h1 p (by simp))
    refine ⟨q1, ih (fun r hr => h1 r (by simp [hr])) o2, ?_⟩
    intro a ha b hb
    obtain ⟨r, hr, hb⟩ := List.mem_flatMap.1 hb
    have z1 := q2 a ha
    have z2 := (part_pairs (h1 r (by simp [hr]))).2 b hb
    have z3 := o1 r hr
    omega

theorem AlignedBy.bounds {lower : Str → Str} {gold sys : List UDWord} {parts : List Part} {pairs : List (Nat × Nat)}
    (h : AlignedBy lower gold sys parts pairs) : ∀ q ∈ pairs, q.1 < gold.length ∧ q.2 < sys.length := by
  intro q hq
  rw [h.pairs] at hq
  obtain ⟨p, hp, hq⟩ := List.mem_flatMap.1 hq
  exact ((part_pairs (h.each p hp)).2 q hq).2.2.2.2

end Verif
