import Verif.Props.Relabel
import Verif.Props.Score

/-!
# C173: testing taggers with another tag set
-/

namespace Verif

/-- The values of `f` are mapped by `k`. -/
def MappedValues (f : Token → List Str) (k : List Str → List Str) (a b : List Token) : Prop :=
  List.Forall₂ (fun t u => f u = k (f t)) a b

theorem samePlaces_mapped {f : Token → List Str} {k : List Str → List Str} {a a' b b' : List Token}
    (ha : MappedValues f k a a') (hb : MappedValues f k b b') :
    samePlaces f a b ≤ samePlaces f a' b' ∧ (Function.Injective k → samePlaces f a' b' = samePlaces f a b) := by
  unfold samePlaces
  unfold MappedValues at ha hb
  induction ha generalizing b b' with
  | nil => simp
  | cons h _ ih =>
    cases hb with
    | nil => simp
    | cons h' hb =>
      obtain ⟨i1, i2⟩ := ih hb
      simp only [List.zip_cons_cons, List.filter_cons, h, h']
      constructor
      · split
        · rename_i hx
          simp only [decide_eq_true_eq] at hx
          rw [hx]
          simp only [decide_true, if_true, List.length_cons]
          omega
        · split
          · simp only [List.length_cons]; omega
          · exact i1
      · intro hk
        simp only [hk.eq_iff]
        split
        · simp only [List.length_cons, i2 hk]
        · exact i2 hk

/-- C173: if the test documents and the answers of the tagger have their tags or lemmas mapped in the same way, the score that
compares them does not get lower, and stays if different values stay different. -/
theorem C173_testers {lower : Str → Str} {columns : Cols} {depth : Nat} {gold pred gold' pred' : List Document}
    {tag tag' : List Document → Res (List Document)} (h2 : 2 ≤ depth) (hg : Scorable columns depth gold)
    (hp : Scorable columns depth pred) (hg' : Scorable columns depth gold') (hp' : Scorable columns depth pred')
    (hs : List.Forall₂ SameSkeleton gold pred) (hs' : List.Forall₂ SameSkeleton gold' pred')
    (ht : ∀ blind, prepareTestData gold = .ok blind → tag blind = .ok pred)
    (ht' : ∀ blind, prepareTestData gold' = .ok blind → tag' blind = .ok pred') :
    ∃ table table', testDataSet lower columns depth gold tag = .ok table ∧
      testDataSet lower columns depth gold' tag' = .ok table' ∧
      ∀ name f, (name, f) ∈ metricValues columns → ∀ k, MappedValues f k (allTokens gold) (allTokens gold') →
        MappedValues f k (allTokens pred) (allTokens pred') →
        ∃ s s', table.get? name = some s ∧ table'.get? name = some s' ∧ ScoreLe s s' ∧
          (Function.Injective k → s' = s) := by
  obtain ⟨table, a1, a2⟩ := C77_tag_scores (lower := lower) h2 hg hp hs ht
  obtain ⟨table', b1, b2⟩ := C77_tag_scores (lower := lower) h2 hg' hp' hs' ht'
  refine ⟨table, table', a1, b1, fun name f hf k m1 m2 => ?_⟩
  obtain ⟨s, e1, e2⟩ := a2 name f hf
  obtain ⟨s', f1, f2⟩ := b2 name f hf
  have hl : (allTokens gold).length = (allTokens gold').length := List.Forall₂.length_eq m1
  obtain ⟨i1, i2⟩ := samePlaces_mapped m1 m2
  rw [← hl] at f2
  refine ⟨s, s', e1, f1, isScore_le e2 f2 i1, fun hk => ?_⟩
  rw [i2 hk] at f2
  exact f2.unique e2

namespace Demo

/-- The tag "Y" becomes the tag of `wpos`. -/
def noY (v : List Str) : List Str := if v = ["Y".toList] then [wpos.upos.getD []] else v

end Demo

/-- Without the tag "Y" the tags of `pdoc` are those of `wdoc`. -/
example : ∃ f, ("UPOS".toList, f) ∈ metricValues defaultCols ∧
    MappedValues f Demo.noY (allTokens [Demo.wdoc]) (allTokens [Demo.wdoc]) ∧
    MappedValues f Demo.noY (allTokens [Demo.pdoc]) (allTokens [Demo.wdoc]) := by
  refine ⟨_, .head _, ?_, ?_⟩
  · exact .cons (by decide +kernel) (.cons (by decide +kernel) (.cons (by decide +kernel) (.cons (by decide +kernel) .nil)))
  · exact .cons (by decide +kernel) (.cons (by decide +kernel) (.cons (by decide +kernel) (.cons (by decide +kernel) .nil)))

end Verif
