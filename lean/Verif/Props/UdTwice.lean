import Verif.Props.UdJoin

/-!
# C106: evaluating the same files twice behind each other
-/

namespace Verif

/-- C106: if files are written behind themselves, precision, recall and F1 of all scores stay. -/
theorem C106_twice_partial {lower : Str → Str} {d : Nat} {gt yt : Str} {g y : UD} {weights : Option (Dict Str Rat)}
    {m : Metrics} (lg : loadConllu d gt = .ok g) (ly : loadConllu d yt = .ok y) (ng : gt = [] ∨ gt.getLast? = some '\n')
    (ny : yt = [] ∨ yt.getLast? = some '\n') (og : HeadsOk g) (oy : HeadsOk y)
    (e : evaluate lower g y weights = .ok m)
    (hm : (∀ w ∈ g.words ++ y.words, w.multi = false) ∨
      (g.tokens = y.tokens ∧ (∀ t ∈ g.tokens, ∃ w ∈ g.words, w.span = t) ∧ ∀ t ∈ y.tokens, ∃ w ∈ y.words, w.span = t)) :
    ∃ gg yy mm, loadConllu d (gt ++ gt) = .ok gg ∧ loadConllu d (yt ++ yt) = .ok yy ∧
      evaluate lower gg yy weights = .ok mm ∧
      ∀ f ∈ [Metrics.tokens, Metrics.sentences, Metrics.words, Metrics.upos, Metrics.xpos, Metrics.feats, Metrics.allTags,
        Metrics.lemmas, Metrics.uas, Metrics.las, Metrics.clas],
        (f mm).precision = (f m).precision ∧ (f mm).recall = (f m).recall ∧ (f mm).f1 = (f m).f1 := by
  obtain ⟨gg, yy, mm, h1, h2, h3, h4⟩ := C106_partial lg lg ly ly ng ny og og oy oy e e (by
    rcases hm with hm | hm
    · refine .inl (fun w hw => hm w ?_)
      simp only [List.mem_append, or_self] at hw ⊢
      exact hw
    · exact .inr hm)
  refine ⟨gg, yy, mm, h1, h2, h3, fun f hf => ?_⟩
  have hb := (C106_between h4).1 f hf
  have key : ∀ x ∈ [Score.precision, Score.recall, Score.f1], x (f mm) = x (f m) := by
    intro x hx
    obtain ⟨k1, k2⟩ := hb x hx
    rw [min_self] at k1
    rw [max_self] at k2
    exact le_antisymm k2 k1
  exact ⟨key _ (.head _), key _ (.tail _ (.head _)), key _ (.tail _ (.tail _ (.head _)))⟩

/-- A file with a multi-word token, evaluated with itself. -/
example : (∀ t ∈ Demo.joinNextUd.tokens, ∃ w ∈ Demo.joinNextUd.words, w.span = t) ∧
    loadConllu 10 Demo.joinNext = .ok Demo.joinNextUd ∧ Demo.joinNext.getLast? = some '\n' ∧ HeadsOk Demo.joinNextUd :=
  ⟨by decide, Demo.joinNext_loads, by decide +kernel, Demo.joinNext_heads⟩

end Verif
