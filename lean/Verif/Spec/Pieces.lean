import Verif.Model.ConlluIO

/-! # Vocabulary for texts put behind each other -/

namespace Verif

/-- The text consists of complete lines. -/
def WholeLines (a : Str) : Prop := a = [] ∨ a.getLast? = some '\n'

/-- The last line is blank (it may end with `\r\n`). -/
def EndsBlank (a : Str) : Prop := ∃ pre r, a = pre ++ (r ++ ['\n']) ∧ WholeLines pre ∧ ∀ c ∈ r, c = '\r'

end Verif
