import Verif.Model.Extractors

/-! # Vocabulary for claims about longer files of pretrained vectors -/

namespace Verif

/-- Some of the lines is about the word: its first field is the word. -/
def Mentions (lines : List Str) (w : Str) : Prop := ∃ l ∈ lines, (splitWs l).head? = some w

end Verif
