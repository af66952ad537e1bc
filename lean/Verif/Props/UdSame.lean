import Verif.Proofs.UdSame

/-!
# Properties C67 and C68: evaluation and tokenisation
-/

namespace Verif

/-! ### C67 -/

namespace Demo

/-- "abc" and the multi-word token "de" with the words "b" and "e". -/
def farGold : Str :=
  "1\tabc\t_\t_\t_\t_\t0\t_\t_\t_\n2-3\tde\t_\t_\t_\t_\t_\t_\t_\t_\n2\tb\t_\t_\t_\t_\t1\t_\t_\t_\n3\te\t_\t_\t_\t_\t1\t_\t_\t_\n\n".toList

/-- "a", "b" and "cde". -/
def farSys : Str :=
  "1\ta\t_\t_\t_\t_\t0\t_\t_\t_\n2\tb\t_\t_\t_\t_\t1\t_\t_\t_\n3\tcde\t_\t_\t_\t_\t1\t_\t_\t_\n\n".toList

def farGoldUd : UD :=
  { characters := "abcde".toList
    tokens := [⟨0, 3⟩, ⟨3, 5⟩]
    words := [⟨⟨0, 3⟩, row "1" "abc" "_" "0" "_", false, .none⟩, ⟨⟨3, 5⟩, row "2" "b" "_" "1" "_", true, .word 0⟩,
      ⟨⟨3, 5⟩, row "3" "e" "_" "1" "_", true, .word 0⟩]
    sentences := [⟨0, 5⟩] }

def farSysUd : UD :=
  { characters := "abcde".toList
    tokens := [⟨0, 1⟩, ⟨1, 2⟩, ⟨2, 5⟩]
    words := [⟨⟨0, 1⟩, row "1" "a" "_" "0" "_", false, .none⟩, ⟨⟨1, 2⟩, row "2" "b" "_" "1" "_", false, .word 0⟩,
      ⟨⟨2, 5⟩, row "3" "cde" "_" "1" "_", false, .word 0⟩]
    sentences := [⟨0, 5⟩] }

end Demo

/-- C67 is false in general: the search for the start of a multiword span skips at most one word, so a
system word can be aligned with a word of a multi-word token that lies elsewhere in the text. -/
theorem C67_refuted : ∃ gold sys pairs, Loaded gold ∧ Loaded sys ∧ gold.characters = sys.characters ∧
    alignWords id gold.words sys.words = .ok pairs ∧
    ∃ p ∈ pairs, PairSat gold.words sys.words (fun g s => s.span.stop ≤ g.span.start) p :=
  ⟨Demo.farGoldUd, Demo.farSysUd, [(1, 1)], ⟨10, Demo.farGold, by decide +kernel⟩, ⟨10, Demo.farSys, by decide +kernel⟩,
    rfl, by decide +kernel, (1, 1), by simp, _, _, rfl, rfl, by decide⟩

/-- What holds of C67: if both files have the same tokens and no token is without words, aligned words
belong to the same token.  (Missing: files with different tokens, for which it is false.) -/
theorem C67_partial {gold sys : UD} (lower : Str → Str) (hg : Loaded gold) (hs : Loaded sys)
    (ht : gold.tokens = sys.tokens) (ag : ∀ t ∈ gold.tokens, ∃ w ∈ gold.words, w.span = t)
    (as : ∀ t ∈ sys.tokens, ∃ w ∈ sys.words, w.span = t) {pairs : List (Nat × Nat)}
    (h : alignWords lower gold.words sys.words = .ok pairs) :
    ∀ p ∈ pairs, PairSat gold.words sys.words (fun g s => g.span = s.span) p := by
  have key : ∀ ud : UD, Loaded ud → (∀ t ∈ ud.tokens, ∃ w ∈ ud.words, w.span = t) → WordsOf ud.tokens ud.words := by
    intro ud hl ha
    have hl' := hl
    obtain ⟨d, t, hl'⟩ := hl'
    exact ⟨hl.tokens, fun w hw => ((C25_words hl').1 w hw).1, ha, hl.ordered⟩
  have wg := key gold hg ag
  have ws := key sys hs as
  rw [← ht] at ws
  exact alignLoop_same_tokens lower wg ws _ 0 0 0 pairs ⟨by intro k w h; omega, by intros; omega⟩
    ⟨by intro k w h; omega, by intros; omega⟩ h

/-- The hypotheses of `C67_partial` are met with a multi-word token on one side only. -/
example : Loaded Demo.udLoaded ∧ ∃ sys, Loaded sys ∧ Demo.udLoaded.tokens = sys.tokens ∧
    (∀ t ∈ Demo.udLoaded.tokens, ∃ w ∈ Demo.udLoaded.words, w.span = t) ∧
    (∀ t ∈ sys.tokens, ∃ w ∈ sys.words, w.span = t) ∧ Demo.udLoaded.words.length ≠ sys.words.length :=
  ⟨⟨_, _, Demo.udLoads⟩,
   { characters := "abcd".toList
     tokens := [⟨0, 2⟩, ⟨2, 4⟩]
     words := [⟨⟨0, 2⟩, Demo.row "1" "ab" "X" "0" "root", false, .none⟩, ⟨⟨2, 4⟩, Demo.row "2" "cd" "X" "1" "obj", false, .word 0⟩]
     sentences := [⟨0, 4⟩] },
   ⟨10, "1\tab\t_\tX\t_\t_\t0\troot\t_\t_\n2\tcd\t_\tX\t_\t_\t1\tobj\t_\t_\n\n".toList, by decide +kernel⟩,
   by decide, by decide, by decide, by decide⟩

/-! ### C68 -/

theorem pairsSat_diag {gold sys : List UDWord} (hl : gold.length = sys.length) (P : UDWord → UDWord → Prop) :
    (pairsSat gold sys P ((List.range gold.length).map (fun k => (k, k)))).length = agreeing P gold sys := by
  classical
  let d : UDWord := ⟨⟨0, 0⟩, [], false, .none⟩
  have hz : gold.zip sys = (List.range gold.length).map (fun i => (gold.getD i d, sys.getD i d)) := by
    apply List.ext_getElem
    · simp [hl]
    · intro i h1 h2
      simp only [List.length_map, List.length_range] at h2
      simp [h2, hl ▸ h2]
  unfold pairsSat agreeing
  rw [hz, List.filter_map, List.filter_map, List.length_map, List.length_map]
  congr 1
  apply List.filter_congr
  intro i hi
  have h1 : i < gold.length := List.mem_range.1 hi
  have h2 : i < sys.length := hl ▸ h1
  simp only [Function.comp, decide_eq_decide]
  have e1 : gold[i]? = some (gold.getD i d) := by simp [h1]
  have e2 : sys[i]? = some (sys.getD i d) := by simp [h2]
  constructor
  · rintro ⟨g, s, q1, q2, q3⟩
    rw [e1] at q1; rw [e2] at q2
    injection q1 with q1; injection q2 with q2
    rw [q1, q2]; exact q3
  · intro h; exact ⟨_, _, e1, e2, h⟩

/-- C68: if the system file has the same words as the gold file (spans, multi-word tokens and forms up to
case), the alignment is the identity, all words are aligned, and every score is the share of positions
at which the words agree. -/
theorem C68_wordwise {lower : Str → Str} {gold sys : UD} {weights : Option (Dict Str Rat)} (hg : Loaded gold)
    (hs : Loaded sys) (hc : gold.characters = sys.characters) (hw : List.Forall₂ (SameLook lower) gold.words sys.words) :
    ∃ m, evaluate lower gold sys weights = .ok m ∧ (gold.words ≠ [] → Perfect false m.words) ∧
      (∀ cols s, (cols, s) ∈ [([colUPOS], m.upos), ([colXPOS], m.xpos), ([colFEATS], m.feats),
          ([colUPOS, colXPOS, colFEATS], m.allTags), ([colLEMMA], m.lemmas)] →
        IsScore s gold.words.length gold.words.length (agreeing (ColsAgree cols) gold.words sys.words)
          (some gold.words.length)) ∧
      IsScore m.uas gold.words.length gold.words.length
        (agreeing (fun g s => g.parent = s.parent) gold.words sys.words) (some gold.words.length) ∧
      IsScore m.las gold.words.length gold.words.length
        (agreeing (fun g s => g.parent = s.parent ∧ ColsAgree [colDEPREL] g s) gold.words sys.words)
        (some gold.words.length) := by
  have hal : alignWords lower gold.words sys.words = .ok ((List.range gold.words.length).map (fun k => (k, k))) := by
    have hw' : List.Forall₂ (SameLook lower) sys.words gold.words :=
      hw.flip.imp (fun a b h => ⟨h.1.symm, h.2.1.symm, h.2.2.symm⟩)
    rw [alignWords_congr hw', alignWords_self lower hg.nonEmpty hg.ordered]
  obtain ⟨m, hm⟩ := (C28_total lower weights hg hs).1 hc
  obtain ⟨pairs, parts, a0, _, a1, a2, a3, a4, _⟩ := C66_counts hg hs hm
  rw [hal] at a0
  injection a0 with a0
  subst a0
  have hl := hw.length_eq
  have hdl : (((List.range gold.words.length).map (fun k => (k, k))).length : Rat) = gold.words.length := by simp
  have hheads : ∀ g ∈ gold.words, ∀ s ∈ sys.words,
      HeadsAgree ((List.range gold.words.length).map (fun k => (k, k))) g s ↔ g.parent = s.parent := by
    intro g hgm s hsm
    constructor
    · rintro (⟨e1, e2⟩ | ⟨a, b, e1, e2, e3⟩)
      · rw [e1, e2]
      · obtain ⟨k, _, e⟩ := List.mem_map.1 e3
        injection e with x y
        rw [e1, e2, ← x, ← y]
    · intro e
      rcases hg.parent g hgm with h | ⟨p, h⟩
      · exact .inl ⟨h, e ▸ h⟩
      · exact .inr ⟨p, p, h, e ▸ h, List.mem_map.2 ⟨p, List.mem_range.2 (hg.parent_lt g hgm p h), rfl⟩⟩
  have hcongr : ∀ P Q : UDWord → UDWord → Prop, (∀ g ∈ gold.words, ∀ s ∈ sys.words, P g s ↔ Q g s) →
      agreeing P gold.words sys.words = agreeing Q gold.words sys.words := by
    intro P Q h
    unfold agreeing
    congr 1
    apply List.filter_congr
    intro p hp
    have := h p.1 (List.of_mem_zip hp).1 p.2 (List.of_mem_zip hp).2
    simp only [decide_eq_decide]
    exact this
  refine ⟨m, hm, ?_, ?_, ?_, ?_⟩
  · intro hne
    rw [hdl, ← hl] at a1
    have hn : (gold.words.length : Rat) ≠ 0 := by
      have := List.length_pos_iff.2 hne
      exact_mod_cast (by omega : gold.words.length ≠ 0)
    have h2 : (gold.words.length : Rat) + gold.words.length ≠ 0 := by
      rw [← two_mul]; exact mul_ne_zero (by decide) hn
    refine ⟨?_, ?_, ?_, a1.aligned⟩
    · rw [a1.precision, ratio, if_neg hn, div_self hn]
    · rw [a1.recall, ratio, if_neg hn, div_self hn]
    · rw [a1.f1, ratio, if_neg h2, ← two_mul, div_self (by rw [two_mul]; exact h2)]
  · intro cols s hm
    have := a2 cols s hm
    rwa [hdl, ← hl, pairsSat_diag hl] at this
  · rwa [hdl, ← hl, pairsSat_diag hl, hcongr _ _ hheads] at a3
  · rwa [hdl, ← hl, pairsSat_diag hl, hcongr _ (fun g s => g.parent = s.parent ∧ ColsAgree [colDEPREL] g s)
      (fun g h1 s h2 => and_congr_left (fun _ => hheads g h1 s h2))] at a4

/-- The hypotheses of `C68_wordwise` are met with different annotations. -/
example : Loaded Demo.udLoaded ∧ ∃ sys, Loaded sys ∧ Demo.udLoaded.characters = sys.characters ∧
    List.Forall₂ (SameLook id) Demo.udLoaded.words sys.words ∧ Demo.udLoaded.words ≠ sys.words := by
  refine ⟨⟨_, _, Demo.udLoads⟩,
   { characters := "abcd".toList
     tokens := [⟨0, 2⟩, ⟨2, 4⟩]
     words := [⟨⟨0, 2⟩, Demo.row "1" "a" "Z" "0" "root", true, .none⟩, ⟨⟨0, 2⟩, Demo.row "2" "b" "Y" "1" "obj", true, .word 0⟩,
       ⟨⟨2, 4⟩, Demo.row "1" "cd" "X" "0" "root", false, .none⟩]
     sentences := [⟨0, 2⟩, ⟨2, 4⟩] }, ⟨10,
   "1-2\tab\t_\t_\t_\t_\t_\t_\t_\t_\n1\ta\t_\tZ\t_\t_\t0\troot\t_\t_\n2\tb\t_\tY\t_\t_\t1\tobj\t_\t_\n\n1\tc d\t_\tX\t_\t_\t0\troot\t_\t_\n\n".toList,
   by decide +kernel⟩, rfl, ?_, by decide⟩
  refine .cons ?_ (.cons ?_ (.cons ?_ .nil)) <;> exact ⟨rfl, rfl, rfl⟩

end Verif
