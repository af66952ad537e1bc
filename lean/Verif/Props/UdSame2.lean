import Verif.Props.UdSame

/-!
# Weighted scores with the gold tokenisation (C68)
-/

namespace Verif

open Classical in
/-- The total weight of the gold words at the positions at which the words of the two lists are in
relation `P`. -/
noncomputable def agreeingWeight (wt : UDWord → Rat) (P : UDWord → UDWord → Prop) (gold sys : List UDWord) : Rat :=
  (((gold.zip sys).filter (fun p => decide (P p.1 p.2))).map (fun p => wt p.1)).sum

theorem goldWeight_diag {gold sys : List UDWord} (hl : gold.length = sys.length) (wt : UDWord → Rat)
    (P : UDWord → UDWord → Prop) :
    goldWeight wt gold (pairsSat gold sys P ((List.range gold.length).map (fun k => (k, k)))) =
      agreeingWeight wt P gold sys := by
  classical
  let d : UDWord := ⟨⟨0, 0⟩, [], false, .none⟩
  have hz : gold.zip sys = (List.range gold.length).map (fun i => (gold.getD i d, sys.getD i d)) := by
    apply List.ext_getElem
    · simp [hl]
    · intro i h1 h2
      simp only [List.length_map, List.length_range] at h2
      simp [h2, hl ▸ h2]
  unfold pairsSat agreeingWeight goldWeight
  rw [hz, List.filter_map, List.filter_map, List.map_map, List.map_map]
  have hf : ((fun p => decide (PairSat gold sys P p)) ∘ fun k : Nat => (k, k)) =
      fun k => decide (PairSat gold sys P (k, k)) := rfl
  have e : (List.range gold.length).filter ((fun p => decide (PairSat gold sys P p)) ∘ fun k => (k, k)) =
      (List.range gold.length).filter ((fun p : UDWord × UDWord => decide (P p.1 p.2)) ∘
        fun i => (gold.getD i d, sys.getD i d)) := by
    apply List.filter_congr
    intro i hi
    have h1 : i < gold.length := List.mem_range.1 hi
    have h2 : i < sys.length := hl ▸ h1
    simp only [Function.comp, decide_eq_decide]
    have e1 : gold[i]? = some (gold.getD i d) := by simp [h1]
    have e2 : sys[i]? = some (sys.getD i d) := by simp [h2]
    constructor
    · rintro ⟨g, s, q1, q2, q3⟩
      rw [e1] at q1; rw [e2] at q2
      injection q1 with q1; injection q2 with q2
      rw [q1, q2]; exact q3
    · intro h; exact ⟨_, _, e1, e2, h⟩
  rw [e]
  congr 1
  apply List.map_congr_left
  intro i hi
  have h1 : i < gold.length := List.mem_range.1 (List.mem_of_mem_filter hi)
  simp [h1]

theorem goldWeight_all {gold : List UDWord} (wt : UDWord → Rat) :
    goldWeight wt gold ((List.range gold.length).map (fun k => (k, k))) = (gold.map wt).sum := by
  unfold goldWeight
  rw [List.map_map]
  congr 1
  apply List.ext_getElem
  · simp
  · intro i h1 h2
    simp only [List.length_map, List.length_range] at h1
    simp [h1]

/-- C68 for the weighted scores: CLAS and WeightedLAS add up, over the positions at which head and
relation agree, the weights of the gold words; the totals are the weights of all gold words, of all
system words, and for the aligned accuracy of all gold words again. -/
theorem C68_weighted {lower : Str → Str} {gold sys : UD} {weights : Option (Dict Str Rat)} {m : Metrics}
    (hg : Loaded gold) (hs : Loaded sys) (hw : List.Forall₂ (SameLook lower) gold.words sys.words)
    (hm : evaluate lower gold sys weights = .ok m) :
    IsScore m.clas (gold.words.map clasWeight).sum (sys.words.map clasWeight).sum
      (agreeingWeight clasWeight (fun g s => g.parent = s.parent ∧ ColsAgree [colDEPREL] g s) gold.words sys.words)
      (some (gold.words.map clasWeight).sum) ∧
    ∀ ws, weights = some ws → ∃ s, m.weighted = some s ∧
      IsScore s (gold.words.map (tableWeight ws)).sum (sys.words.map (tableWeight ws)).sum
        (agreeingWeight (tableWeight ws) (fun g s => g.parent = s.parent ∧ ColsAgree [colDEPREL] g s)
          gold.words sys.words)
        (some (gold.words.map (tableWeight ws)).sum) := by
  have hal : alignWords lower gold.words sys.words = .ok ((List.range gold.words.length).map (fun k => (k, k))) := by
    have hw' : List.Forall₂ (SameLook lower) sys.words gold.words :=
      hw.flip.imp (fun a b h => ⟨h.1.symm, h.2.1.symm, h.2.2.symm⟩)
    rw [alignWords_congr hw', alignWords_self lower hg.nonEmpty hg.ordered]
  obtain ⟨pairs, parts, a0, _, _, _, _, _, a5, _, a6⟩ := C66_counts hg hs hm
  rw [hal] at a0
  injection a0 with a0
  subst a0
  have hl := hw.length_eq
  have hheads : ∀ g ∈ gold.words, ∀ s ∈ sys.words,
      HeadsAgree ((List.range gold.words.length).map (fun k => (k, k))) g s ↔ g.parent = s.parent := by
    intro g hgm s hsm
    constructor
    · rintro (⟨e1, e2⟩ | ⟨a, b, e1, e2, e3⟩)
      · rw [e1, e2]
      · obtain ⟨k, _, e⟩ := List.mem_map.1 e3
        injection e with x y
        rw [e1, e2, ← x, ← y]
    · intro e
      rcases hg.parent g hgm with h | ⟨p, h⟩
      · exact .inl ⟨h, e ▸ h⟩
      · exact .inr ⟨p, p, h, e ▸ h, List.mem_map.2 ⟨p, List.mem_range.2 (hg.parent_lt g hgm p h), rfl⟩⟩
  have hcongr : ∀ wt : UDWord → Rat, agreeingWeight wt
      (fun g s => HeadsAgree ((List.range gold.words.length).map (fun k => (k, k))) g s ∧ ColsAgree [colDEPREL] g s)
        gold.words sys.words =
      agreeingWeight wt (fun g s => g.parent = s.parent ∧ ColsAgree [colDEPREL] g s) gold.words sys.words := by
    intro wt
    unfold agreeingWeight
    congr 2
    apply List.filter_congr
    intro p hp
    simp only [decide_eq_decide]
    exact and_congr_left (fun _ => hheads p.1 (List.of_mem_zip hp).1 p.2 (List.of_mem_zip hp).2)
  refine ⟨?_, fun ws h => ?_⟩
  · rwa [goldWeight_diag hl, goldWeight_all, hcongr] at a5
  · obtain ⟨s, h1, h2⟩ := a6 ws h
    refine ⟨s, h1, ?_⟩
    rwa [goldWeight_diag hl, goldWeight_all, hcongr] at h2

/-- The hypotheses are met with different annotations. -/
example : Loaded Demo.udLoaded ∧ ∃ sys m, Loaded sys ∧
    List.Forall₂ (SameLook id) Demo.udLoaded.words sys.words ∧ Demo.udLoaded.words ≠ sys.words ∧
    evaluate id Demo.udLoaded sys none = .ok m := by
  have hl : Loaded Demo.udLoaded := ⟨_, _, Demo.udLoads⟩
  have hs : Loaded
   { characters := "abcd".toList
     tokens := [⟨0, 2⟩, ⟨2, 4⟩]
     words := [⟨⟨0, 2⟩, Demo.row "1" "a" "Z" "0" "root", true, .none⟩, ⟨⟨0, 2⟩, Demo.row "2" "b" "Y" "1" "obj", true, .word 0⟩,
       ⟨⟨2, 4⟩, Demo.row "1" "cd" "X" "0" "root", false, .none⟩]
     sentences := [⟨0, 2⟩, ⟨2, 4⟩] } := ⟨10,
   "1-2\tab\t_\t_\t_\t_\t_\t_\t_\t_\n1\ta\t_\tZ\t_\t_\t0\troot\t_\t_\n2\tb\t_\tY\t_\t_\t1\tobj\t_\t_\n\n1\tc d\t_\tX\t_\t_\t0\troot\t_\t_\n\n".toList,
   by decide +kernel⟩
  obtain ⟨m, hm⟩ := (C28_total id none hl hs).1 rfl
  refine ⟨hl, _, m, hs, ?_, by decide, hm⟩
  refine .cons ?_ (.cons ?_ (.cons ?_ .nil)) <;> exact ⟨rfl, rfl, rfl⟩

end Verif
