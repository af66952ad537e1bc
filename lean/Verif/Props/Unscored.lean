import Verif.Proofs.UnscoredEval
import Verif.Props.EvalMain

/-!
# C163: what the evaluation does not look at
-/

namespace Verif

/-! ### C163 -/

/-- C163: comments before sentences, empty nodes, DEPS, MISC, subtypes of relations, spaces in FORM, everything but ID and FORM in
the lines of multi-word tokens, and the numbers of the words of a multi-word token influence neither the scores nor the exceptions,
whether they differ in the gold file, in the system file, or in both. -/
theorem C163_scores (float : Str → Res Rat) (lower : Str → Str) (depth : Nat) (a : EvalArgs) {gold system : Str}
    (hg : SameButUnscored a.gold gold) (hs : SameButUnscored a.system system) :
    evaluateWrapper float lower depth { a with gold := gold, system := system } = evaluateWrapper float lower depth a :=
  wrapper_unscored float lower depth a hg hs

/-- C163: nor what the script prints. -/
theorem C163_report (float : Str → Res Rat) (lower : Str → Str) (depth : Nat) (a : EvalArgs) {gold system : Str}
    (hg : SameButUnscored a.gold gold) (hs : SameButUnscored a.system system) :
    evalMain float lower depth { a with gold := gold, system := system } = evalMain float lower depth a := by
  unfold evalMain
  rw [C163_scores float lower depth a hg hs]

namespace Demo

/-- A file with comments, a subtype, an empty node, MISC and a multi-word token. -/
def richText : Str :=
  ("# id = 1\n# text = a bc\n1\ta a\t_\tX\t_\t_\t0\troot:x\t0:root\tSpaceAfter=No\n1.1\te\t_\tX\t_\t_\t_\t_\t_\t_\n" ++
    "2-3\tbc\tL\t_\t_\t_\t_\t_\t_\tM\n2\tb\t_\tY\t_\t_\t1\tobj\t_\t_\n3\tc\t_\tY\t_\t_\t2\tdep\t_\t_\n\n").toList

/-- The same without what is not evaluated. -/
def plainText : Str :=
  ("1\taa\t_\tX\t_\t_\t0\troot\t_\t_\n2-3\tbc\t_\t_\t_\t_\t_\t_\t_\t_\n2\tb\t_\tY\t_\t_\t1\tobj:y\t_\t_\n" ++
    "7\tc\t_\tY\t_\t_\t2\tdep\t_\tM\n\n").toList

theorem richPlain : SameButUnscored richText plainText := by
  have h1 : udFileLines richText = ["# id = 1".toList, "# text = a bc".toList,
      "1\ta a\t_\tX\t_\t_\t0\troot:x\t0:root\tSpaceAfter=No".toList, "1.1\te\t_\tX\t_\t_\t_\t_\t_\t_".toList,
      "2-3\tbc\tL\t_\t_\t_\t_\t_\t_\tM".toList, "2\tb\t_\tY\t_\t_\t1\tobj\t_\t_".toList, "3\tc\t_\tY\t_\t_\t2\tdep\t_\t_".toList,
      []] := by decide +kernel
  have h2 : udFileLines plainText = ["1\taa\t_\tX\t_\t_\t0\troot\t_\t_".toList, "2-3\tbc\t_\t_\t_\t_\t_\t_\t_\t_".toList,
      "2\tb\t_\tY\t_\t_\t1\tobj:y\t_\t_".toList, "7\tc\t_\tY\t_\t_\t2\tdep\t_\tM".toList, []] := by decide +kernel
  unfold SameButUnscored
  rw [h1, h2]
  refine .commentLeft (by unfold CommentLine; decide +kernel) (.commentLeft (by unfold CommentLine; decide +kernel) (.enter ?_))
  refine .openWord ⟨by decide +kernel, by decide +kernel, by decide +kernel, by decide +kernel, by unfold CommentLine; decide +kernel⟩
    (by decide +kernel) ⟨by decide +kernel, by decide +kernel, by decide +kernel⟩ ?_
  refine .nodeLeft (by unfold NodeLine; decide +kernel) ?_
  refine .multi (a := "2".toList) (b := "3".toList) (x := 2) (y := 3)
    ⟨by decide +kernel, by decide +kernel, by decide +kernel, by decide +kernel, by unfold CommentLine; decide +kernel⟩
    (by decide +kernel) (by decide +kernel) (by decide +kernel) ?_
  refine .part (n := 1) ⟨by decide +kernel, by decide +kernel, by decide +kernel⟩ (by decide +kernel) ?_
  refine .part (n := 0) ⟨by decide +kernel, by decide +kernel, by decide +kernel⟩ (by decide +kernel) ?_
  exact .blank .same

end Demo

example (float : Str → Res Rat) (lower : Str → Str) (a : EvalArgs) (h1 : a.gold = Demo.richText) (h2 : a.system = Demo.richText) :
    evalMain float lower 10 { a with gold := Demo.plainText, system := Demo.plainText } = evalMain float lower 10 a :=
  C163_report float lower 10 a (by rw [h1]; exact Demo.richPlain) (by rw [h2]; exact Demo.richPlain)

example : evalMain Demo.floatQ id 10 ⟨Demo.richText, Demo.plainText, none, 0⟩ = .ok (.las 100) := by decide +kernel

/-- The main part of the relation is evaluated. -/
example : evalMain Demo.floatQ id 10
    ⟨Demo.plainText, "1\taa\t_\tX\t_\t_\t0\tdep\t_\t_\n2-3\tbc\t_\t_\t_\t_\t_\t_\t_\t_\n2\tb\t_\tY\t_\t_\t1\tobj\t_\t_\n3\tc\t_\tY\t_\t_\t2\tdep\t_\t_\n\n".toList, none, 0⟩ =
    .ok (.las (200 / 3)) := by decide +kernel

/-- A comment within a sentence is an error. -/
example : evalMain Demo.floatQ id 10
    ⟨Demo.plainText, "1\taa\t_\tX\t_\t_\t0\troot\t_\t_\n# c\n2\tbc\t_\tX\t_\t_\t1\tobj\t_\t_\n\n".toList, none, 0⟩ = .error .udError := by
  decide +kernel

end Verif
