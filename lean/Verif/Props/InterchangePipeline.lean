import Verif.Props.Interchange

/-! # C170: equal documents in pipelines -/

namespace Verif

theorem mapM'_respects {f : Document → Res Document}
    (hf : ∀ x y, Built x → Built y → x.pyEq y = true → SameOutcome (fun e e' : Document => e.pyEq e' = true) (f x) (f y))
    (hb : ∀ x e, f x = .ok e → Built e) : RespectsEqual (mapM' f) := by
  intro xs ys hx hy h
  have h' : OutRel (List.Forall₂ fun a b : Document => Built a ∧ Built b ∧ a.pyEq b = true) (mapM' f xs) (mapM' f ys) :=
    mapM'_outRel (mem_equalDocs hx hy h fun x y a b c => by
      rcases hf x y a b c with ⟨e, e', e1, e2, r⟩ | ⟨e, e1, e2⟩
      · have b1 := hb _ _ e1
        have b2 := hb _ _ e2
        rw [e1, e2]; exact .ok ⟨b1, b2, r⟩
      · rw [e1, e2]; exact .error e)
  rcases h'.elim with ⟨es, es', e1, e2, hs⟩ | ⟨e, e1, e2⟩
  · refine .inl ⟨es, es', e1, e2, ?_⟩
    clear e1 e2
    unfold EqualDocs
    induction hs with
    | nil => exact ⟨by simp, by simp, .nil⟩
    | cons r _ ih =>
      refine ⟨?_, ?_, .cons r.2.2 ih.2.2⟩
      · simp only [List.mem_cons, forall_eq_or_imp]; exact ⟨r.1, ih.1⟩
      · simp only [List.mem_cons, forall_eq_or_imp]; exact ⟨r.2.1, ih.2.1⟩
  · exact .inr ⟨e, e1, e2⟩

theorem single_of_forall₂ {R : Document → Document → Prop} {x y : Document} (h : List.Forall₂ R [x] [y]) : R x y := by
  cases h with | cons h _ => exact h

/-- C170: the stub tagger makes equal documents of equal documents. -/
theorem C170_tagger_respects (pos : Option Pos) : RespectsEqual (stubTagAll pos) := by
  refine mapM'_respects (fun x y hx hy h => ?_) (fun x e h => ?_)
  · exact single_of_forall₂ (C170_stub defaultCols pos (xs := [x]) (ys := [y]) (by simpa using hx) (by simpa using hy)
      (.cons h .nil)).1
  · unfold stubTag at h
    split at h
    · cases h
    · exact fromDocument_built h

/-- C170: trained taggers make equal documents of equal documents. -/
theorem C170_trained_respects {F : Type} (lower : Str → Str) (float : Str → Res F) (zero : F) (other : TextToken) (seen : Seen)
    (ps : List Provider) (net : Features → Res Features) :
    RespectsEqual (mapM' (trainedTag lower float zero other seen ps net)) := by
  refine mapM'_respects (fun x y hx hy h => ?_) (fun x e h => trainedTag_built h)
  exact single_of_forall₂ (C170_trained lower float zero other seen ps net defaultCols (xs := [x]) (ys := [y])
    (by simpa using hx) (by simpa using hy) (.cons h .nil)).1

/-- C170: the stub parser makes equal documents of equal documents. -/
theorem C170_parser_respects (deprel : Option Str) : RespectsEqual (stubParseAll deprel) := by
  refine mapM'_respects (fun x y hx hy h => ?_) (fun x e h => ?_)
  · obtain ⟨ts, h1, h2, h3⟩ := stubParse_spec hx.docOk deprel
    obtain ⟨us, k1, k2, k3⟩ := stubParse_spec hy.docOk deprel
    refine .inl ⟨_, _, h1, k1, ?_⟩
    obtain ⟨q1, q2, q3⟩ := Document.pyEq_iff.1 h
    refine Document.pyEq_iff.2 ⟨q1, ?_, q3⟩
    rw [List.forall₂_iff_get] at q2 ⊢
    refine ⟨by simp only [h2, k2, q2.1], fun i hi hi' => ?_⟩
    simp only [List.get_eq_getElem] at hi hi' q2 ⊢
    have hix : i < x.tokens.length := h2 ▸ hi
    have hiy : i < y.tokens.length := k2 ▸ hi'
    obtain ⟨s, hs, c1, c2⟩ := hx.docOk.tiles.cover (Nat.zero_le i) hix
    have a := h3 s hs i c1 c2 _ (List.getElem?_eq_getElem hix)
    have b := k3 s (q3 ▸ hs) i c1 c2 _ (List.getElem?_eq_getElem hiy)
    rw [List.getElem?_eq_getElem hi] at a
    rw [List.getElem?_eq_getElem hi'] at b
    injection a with a
    injection b with b
    have r := q2.2 i hix hiy
    rw [a, b]
    exact ⟨r.start, r.stop, r.pos, r.lemma', rfl, r.sub, r.repl, rfl, r.extras⟩
  · unfold stubParse at h
    split at h
    · cases h
    · exact fromDocument_built h

/-- C170: pipelines of processors that make equal documents of equal documents do so as well. -/
theorem C170_pipeline {ps : List Proc} (h : ∀ p ∈ ps, RespectsEqual p.process) : RespectsEqual (processAll ps) := by
  induction ps with
  | nil => exact fun xs ys hx hy hxy => .inl ⟨xs, ys, rfl, rfl, hx, hy, hxy⟩
  | cons p ps ih =>
    intro xs ys hx hy hxy
    unfold processAll
    simp only [forM']
    rcases h p (by simp) xs ys hx hy hxy with ⟨as, bs, e1, e2, ha, hb, hab⟩ | ⟨e, e1, e2⟩
    · rw [e1, e2]
      exact ih (fun q hq => h q (by simp [hq])) as bs ha hb hab
    · rw [e1, e2]
      exact .inr ⟨e, rfl, rfl⟩

example : RespectsEqual (processAll [{ id := 0, process := stubTagAll none }, { id := 1, process := stubParseAll (some ['x']) }]) :=
  C170_pipeline (by
    simp only [List.mem_cons, List.not_mem_nil, or_false, forall_eq_or_imp, forall_eq]
    exact ⟨C170_tagger_respects _, C170_parser_respects _⟩)

end Verif
