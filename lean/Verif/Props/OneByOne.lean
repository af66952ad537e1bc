import Verif.Spec.OneByOne
import Verif.Props.Again
import Verif.Props.Wrappers
import Verif.Props.Evaluation
import Mathlib.Data.List.Perm.Basic

/-! # C172: documents are processed independently of each other -/

namespace Verif

theorem mapM'_oneByOne (f : Document → Res Document) : OneByOne (mapM' f) := by
  intro docs outs
  rw [mapM'_ok_iff]
  have h1 : ∀ d o, mapM' f [d] = .ok [o] ↔ f d = .ok o := by
    intro d o
    rw [mapM'_ok_iff]
    exact ⟨fun h => by cases h with | cons h _ => exact h, fun h => .cons h .nil⟩
  simp only [h1]

/-- C172: the stub tagger. -/
theorem C172_tagger (pos : Option Pos) : OneByOne (stubTagAll pos) := mapM'_oneByOne _

/-- C172: the stub parser. -/
theorem C172_parser (deprel : Option Str) : OneByOne (stubParseAll deprel) := mapM'_oneByOne _

/-- C172: processors with a UDPipe model, whatever the model does. -/
theorem C172_udpipe (pipe : List UdWord → Res (List UdWord)) : OneByOne (udProcessAll pipe) := mapM'_oneByOne _

/-- C172: a trained tagger, whatever its network does. -/
theorem C172_trained {F : Type} (lower : Str → Str) (float : Str → Res F) (zero : F) (other : TextToken) (seen : Seen)
    (ps : List Provider) (net : Features → Res Features) :
    OneByOne (mapM' (trainedTag lower float zero other seen ps net)) := mapM'_oneByOne _

/-- C172: what a tester does to the documents before a tagger gets them. -/
theorem C172_test_data : OneByOne prepareTestData := mapM'_oneByOne _

/-- C172: pipelines of such processors, also nested ones. -/
theorem C172_pipeline {ps : List Proc} (h : ∀ p ∈ ps, OneByOne p.process) : OneByOne (processAll ps) := by
  induction ps with
  | nil =>
    intro docs outs
    have h0 : ∀ l : List Document, processAll [] l = .ok l := fun _ => rfl
    simp only [h0, Except.ok.injEq, List.cons.injEq, and_true]
    exact List.forall₂_eq_eq_eq ▸ Iff.rfl
  | cons p ps ih =>
    have ih := ih fun q hq => h q (by simp [hq])
    have hp := h p (by simp)
    have step : ∀ docs outs, processAll (p :: ps) docs = .ok outs ↔ ∃ mid, p.process docs = .ok mid ∧ processAll ps mid = .ok outs := by
      intro docs outs
      unfold processAll
      simp only [forM']
      cases p.process docs with
      | error e => simp
      | ok mid => simp
    have one : ∀ d o, processAll (p :: ps) [d] = .ok [o] ↔ ∃ m, p.process [d] = .ok [m] ∧ processAll ps [m] = .ok [o] := by
      intro d o
      rw [step]
      constructor
      · rintro ⟨mid, h1, h2⟩
        have h3 := (hp [d] mid).1 h1
        cases h3 with
        | cons h3 h4 => cases h4; exact ⟨_, h3, h2⟩
      · rintro ⟨m, h1, h2⟩
        exact ⟨[m], h1, h2⟩
    intro docs outs
    rw [step]
    simp only [one]
    constructor
    · rintro ⟨mid, h1, h2⟩
      have h3 := (hp docs mid).1 h1
      have h4 := (ih mid outs).1 h2
      clear h1 h2
      induction h3 generalizing outs with
      | nil => cases h4; exact .nil
      | cons a _ k =>
        cases h4 with
        | cons b h4 => exact .cons ⟨_, a, b⟩ (k _ h4)
    · intro hf
      have : ∃ mid, List.Forall₂ (fun d m => p.process [d] = .ok [m]) docs mid ∧
          List.Forall₂ (fun m o => processAll ps [m] = .ok [o]) mid outs := by
        induction hf with
        | nil => exact ⟨[], .nil, .nil⟩
        | cons a _ k =>
          obtain ⟨m, a1, a2⟩ := a
          obtain ⟨mid, k1, k2⟩ := k
          exact ⟨m :: mid, .cons a1 k1, .cons a2 k2⟩
      obtain ⟨mid, k1, k2⟩ := this
      exact ⟨mid, (hp docs mid).2 k1, (ih mid outs).2 k2⟩

/-- C172: processing the parts of a list one after the other. -/
theorem C172_parts {f : List Document → Res (List Document)} (h : OneByOne f) (xs ys zs : List Document) :
    f (xs ++ ys) = .ok zs ↔ ∃ as bs, f xs = .ok as ∧ f ys = .ok bs ∧ zs = as ++ bs := by
  constructor
  · intro hz
    have k := (h _ _).1 hz
    refine ⟨zs.take xs.length, zs.drop xs.length, (h _ _).2 ?_, (h _ _).2 ?_, (List.take_append_drop _ _).symm⟩
    · have := List.forall₂_take xs.length k
      rwa [List.take_left] at this
    · have := List.forall₂_drop xs.length k
      rwa [List.drop_left] at this
  · rintro ⟨as, bs, h1, h2, rfl⟩
    exact (h _ _).2 (List.rel_append ((h _ _).1 h1) ((h _ _).1 h2))

/-- C172: documents in another order give the same results in that order. -/
theorem C172_order {f : List Document → Res (List Document)} (h : OneByOne f) {xs ys as : List Document} (hp : xs.Perm ys)
    (hx : f xs = .ok as) : ∃ bs, f ys = .ok bs ∧ (xs.zip as).Perm (ys.zip bs) := by
  have k := (h _ _).1 hx
  clear hx
  suffices ∃ bs, List.Forall₂ (fun d o => f [d] = .ok [o]) ys bs ∧ (xs.zip as).Perm (ys.zip bs) by
    obtain ⟨bs, h1, h2⟩ := this
    exact ⟨bs, (h _ _).2 h1, h2⟩
  clear h
  induction hp generalizing as with
  | nil => cases k; exact ⟨[], .nil, .nil⟩
  | cons x _ ih =>
    cases k with
    | cons a k =>
      obtain ⟨bs, h1, h2⟩ := ih k
      exact ⟨_ :: bs, .cons a h1, h2.cons _⟩
  | swap x y l =>
    cases k with
    | cons a k =>
      cases k with
      | cons b k => exact ⟨_, .cons b (.cons a k), .swap _ _ _⟩
  | trans _ _ ih1 ih2 =>
    obtain ⟨bs, h1, h2⟩ := ih1 k
    obtain ⟨cs, h3, h4⟩ := ih2 h1
    exact ⟨cs, h3, h2.trans h4⟩

/-- C172 does not hold for every processor that the interface allows: one that keeps the first document only. -/
theorem C172_not_vacuous : ∃ f : List Document → Res (List Document), ¬ OneByOne f := by
  refine ⟨fun l => .ok (l.take 1), fun h => ?_⟩
  have := (h [⟨[], [], []⟩, ⟨[], [], []⟩] [⟨[], [], []⟩]).1 rfl
  cases this with | cons _ h => cases h

example : OneByOne (processAll [{ id := 0, process := stubTagAll none }, { id := 1, process := stubParseAll (some ['x']) }]) ∧
    ∃ outs, processAll [{ id := 0, process := stubTagAll none }, { id := 1, process := stubParseAll (some ['x']) }]
      [Demo.doc, Demo.doc] = .ok outs ∧ outs.length = 2 :=
  ⟨C172_pipeline (by
    simp only [List.mem_cons, List.not_mem_nil, or_false, forall_eq_or_imp, forall_eq]
    exact ⟨C172_tagger _, C172_parser _⟩), _, rfl, rfl⟩

end Verif
