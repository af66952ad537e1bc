import Verif.Model.Datamodel

/-!
# Model of the printed forms in /repo/babylondigger/datamodel.py

`reprStr` is Python's `repr` on strings and stays an arbitrary function.
-/

namespace Verif

/-- `repr` of a string or `None`. -/
def reprOpt (reprStr : Str → Str) : Option Str → Str
  | none => "None".toList
  | some s => reprStr s

/-- `repr` of a dictionary of strings: `{'k': 'v', 'l': 'w'}`. -/
def reprDict (reprStr : Str → Str) (d : Dict Str Str) : Str :=
  '{' :: (List.intercalate ", ".toList
    (d.entries.map (fun p => reprStr p.1 ++ ": ".toList ++ reprStr p.2)) ++ "}".toList)

/-- datamodel.py:30-32 `Pos.__repr__`, which is also what `format` prints. -/
def Pos.repr (reprStr : Str → Str) (p : Pos) : Str :=
  "{'upos': ".toList ++ reprOpt reprStr p.upos ++ ", 'xpos': ".toList ++ reprOpt reprStr p.xpos ++
    " 'feats': ".toList ++ reprDict reprStr p.feats ++ "}".toList

/-- datamodel.py:539-547: the body of the inner loop of `Document.__str__`; the state is
(result, pointer). -/
def strToken (reprStr : Str → Str) (d : Document) (st : Str × Nat) (i : Nat) : Res (Str × Nat) :=
  match pyGet d.tokens (i : Int) with
  | .error e => .error e
  | .ok token =>
    let result := st.1 ++ slice d.text st.2 token.start
    let result := result ++ ('[' :: slice d.text token.start token.stop)
    let result := match token.pos with
      | none => result
      | some p => result ++ ("|'pos':".toList ++ p.repr reprStr)
    let result := match token.lemma' with
      | none => result
      | some l => result ++ ("|'lemma':'".toList ++ l ++ "'".toList)
    .ok (result ++ [']'], token.stop)

/-- datamodel.py:535-548: the body of the outer loop of `Document.__str__`. -/
def strSentence (reprStr : Str → Str) (d : Document) (st : Str × Nat) (s : Sentence) :
    Res (Str × Nat) :=
  match pyGet d.tokens (s.start : Int) with
  | .error e => .error e
  | .ok first =>
    match forM' (strToken reprStr d)
        (st.1 ++ slice d.text st.2 first.start ++ ['['], first.start)
        (List.range' s.start (s.stop - s.start)) with
    | .error e => .error e
    | .ok st' => .ok (st'.1 ++ [']'], st'.2)

/-- datamodel.py:532-550 `Document.__str__`. -/
def Document.str (reprStr : Str → Str) (d : Document) : Res Str :=
  match pyGet d.tokens 0 with
  | .error e => .error e
  | .ok first =>
    match forM' (strSentence reprStr d) (slice d.text 0 first.start, first.start) d.sentences with
    | .error e => .error e
    | .ok st =>
      match pyGet d.tokens (-1) with
      | .error e => .error e
      | .ok last => .ok (st.1 ++ d.text.drop last.stop)

end Verif
