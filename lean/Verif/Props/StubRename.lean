import Verif.Props.Pipeline

/-!
# C61: the stub tagger and other names for tags
-/

namespace Verif

section
variable {α : Type} {eq : α → α → Bool} {f : α → α} (hf : ∀ a b, eq (f a) (f b) = eq a b)
include hf

theorem eqGet_rename (k : α) (l : List (α × Nat)) : eqGet eq (f k) (l.map (fun p => (f p.1, p.2))) = eqGet eq k l := by
  induction l with
  | nil => rfl
  | cons p l ih => simp only [List.map_cons, eqGet, hf, ih]

theorem eqSet_rename (k : α) (v : Nat) (l : List (α × Nat)) :
    eqSet eq (f k) v (l.map (fun p => (f p.1, p.2))) = (eqSet eq k v l).map (fun p => (f p.1, p.2)) := by
  induction l with
  | nil => rfl
  | cons p l ih =>
    simp only [List.map_cons, eqSet, hf, ih]
    split <;> simp

theorem counter_rename (xs : List α) : counter eq (xs.map f) = (counter eq xs).map (fun p => (f p.1, p.2)) := by
  suffices h : ∀ c : List (α × Nat), (xs.map f).foldl (fun c x => countAdd eq c x 1) (c.map (fun p => (f p.1, p.2))) =
      (xs.foldl (fun c x => countAdd eq c x 1) c).map (fun p => (f p.1, p.2)) from h []
  induction xs with
  | nil => intro c; rfl
  | cons x xs ih =>
    intro c
    simp only [List.map_cons, List.foldl_cons, countAdd, eqGet_rename hf, eqSet_rename hf]
    exact ih _

end

theorem firstMax_rename {α : Type} (f : α → α) (l : List (α × Nat)) :
    firstMax (l.map (fun p => (f p.1, p.2))) = (firstMax l).map (fun p => (f p.1, p.2)) := by
  cases l with
  | nil => rfl
  | cons p l =>
    simp only [List.map_cons, firstMax, Option.map_some, Option.some.injEq]
    induction l generalizing p with
    | nil => rfl
    | cons q l ih =>
      simp only [List.map_cons, List.foldl_cons]
      split
      · exact ih q
      · exact ih p

/-- C61: with other names for the tags of the training data, different ones for different tags, the stub tagger gives the
other name of the tag it gave before; if it could not be trained, it cannot now. -/
theorem C61_renamed (f : Option Pos → Option Pos) (hf : ∀ a b, Token.optPosEq (f a) (f b) = Token.optPosEq a b)
    (docs docs' : List Document) (h : posLabels docs' = (posLabels docs).map f) :
    stubTrain docs' = (stubTrain docs).map (List.map f) := by
  have he : ∀ docs : List Document, (docs.flatMap (fun d => d.tokens)).map (fun t => t.pos) = posLabels docs := by
    intro docs
    simp [posLabels, datasetTokens, List.map_flatMap, Document.textTokens, Function.comp_def]
  unfold stubTrain mostFrequentPos
  rw [he, he, h, counter_rename hf, firstMax_rename]
  cases firstMax (counter Token.optPosEq (posLabels docs)) <;> rfl

namespace Demo

/-- "q" before every universal tag. -/
def markPos : Option Pos → Option Pos := Option.map (fun p => { p with upos := p.upos.map (List.cons 'q') })

/-- One word with this tag. -/
def oneTagDoc (x : Str) : Document :=
  { text := ['a'], tokens := [{ start := 0, stop := 1, pos := some ⟨some x, none, Dict.empty⟩ }],
    sentences := [{ start := 0, stop := 1 }] }

end Demo

example : (∀ a b, Token.optPosEq (Demo.markPos a) (Demo.markPos b) = Token.optPosEq a b) ∧
    posLabels [Demo.oneTagDoc ['q', 'X']] = (posLabels [Demo.oneTagDoc ['X']]).map Demo.markPos ∧
    stubTrain [Demo.oneTagDoc ['q', 'X']] = .ok [some ⟨some ['q', 'X'], none, Dict.empty⟩] := by
  refine ⟨?_, by decide +kernel, by decide +kernel⟩
  intro a b
  cases a <;> cases b <;> try rfl
  rename_i p q
  simp only [Demo.markPos, Option.map_some, Token.optPosEq, Pos.pyEq]
  congr 2
  cases p.upos <;> cases q.upos <;> simp

end Verif
