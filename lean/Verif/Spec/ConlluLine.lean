import Verif.Model.ConlluIO

/-! # Specification vocabulary for one line of CoNLL-U -/

namespace Verif

/-- The value of column `c`: missing if the column holds `_`. -/
def Cell (fields : List Str) (c : Nat) (v : Option Str) : Prop :=
  ∃ s, fields[c]? = some s ∧ ((s = "_".toList ∧ v = none) ∨ (s ≠ "_".toList ∧ v = some s))

/-- The value of column `c` if it is selected, otherwise missing. -/
def SelCell (cols : Cols) (fields : List Str) (c : Nat) (v : Option Str) : Prop :=
  (c ∈ cols ∧ Cell fields c v) ∨ (c ∉ cols ∧ v = none)

/-- The text `part` is `a=b`, possibly followed by `=` and anything else. -/
def IsAttr (part : Str) (a b : Str) : Prop :=
  '=' ∉ a ∧ '=' ∉ b ∧ (part = a ++ '=' :: b ∨ ∃ r, part = a ++ '=' :: (b ++ '=' :: r))

/-- The map `d` holds the attributes of a column value like `a=b|c=d`: the last one of each name. -/
def Attrs : Option Str → Dict Str Str → Prop
  | none, d => ∀ k, d.get? k = none
  | some f, d => ∃ (parts : List Str) (pairs : List (Str × Str)), parts ≠ [] ∧ (∀ p ∈ parts, '|' ∉ p) ∧
      f = joinWith '|' parts ∧ List.Forall₂ (fun p e => IsAttr p e.1 e.2) parts pairs ∧
      ∀ k, d.get? k = (pairs.reverse.find? (fun e => e.1 = k)).map Prod.snd

/-- `p` is what a line with the given columns means to a reader that selects `cols`. -/
structure LineMeans (cols : Cols) (fields : List Str) (p : PTok) : Prop where
  columns : 10 ≤ fields.length
  id : Cell fields colID p.id
  text : fields[colFORM]? = some p.text
  lemma' : SelCell cols fields colLEMMA p.lemma'
  deprel : SelCell cols fields colDEPREL p.deprel
  head : ∃ v, SelCell cols fields colHEAD v ∧ (v = none → p.head = none) ∧
    ∀ s, v = some s → ∃ i, pyInt s = .ok i ∧ p.head = some i
  pos : (colUPOS ∈ cols ∨ colXPOS ∈ cols ∨ colFEATS ∈ cols) → ∃ (q : Pos) (f : Option Str), p.pos = some q ∧
    SelCell cols fields colUPOS q.upos ∧ SelCell cols fields colXPOS q.xpos ∧ SelCell cols fields colFEATS f ∧ Attrs f q.feats
  noPos : ¬ (colUPOS ∈ cols ∨ colXPOS ∈ cols ∨ colFEATS ∈ cols) → p.pos = none
  space : ∃ f d, Cell fields colMISC f ∧ Attrs f d ∧ (p.spaceAfter = true ↔ d.get? "SpaceAfter".toList = none)

/-- Two line contents that differ at most in the order of the features. -/
def SameLine (p q : PTok) : Prop :=
  p.id = q.id ∧ p.text = q.text ∧ p.lemma' = q.lemma' ∧ p.deprel = q.deprel ∧ p.head = q.head ∧
    p.spaceAfter = q.spaceAfter ∧ p.pos.map Pos.upos = q.pos.map Pos.upos ∧ p.pos.map Pos.xpos = q.pos.map Pos.xpos ∧
    ∀ k, p.pos.map (fun x => x.feats.get? k) = q.pos.map (fun x => x.feats.get? k)

end Verif
