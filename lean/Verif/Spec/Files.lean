import Verif.Model.Files

/-!
# Specification vocabulary for text files
-/

namespace Verif

/-- No text or annotation of the document contains a carriage return. -/
structure CrFree (d : Document) : Prop where
  text : '\r' ∉ d.text
  repl : ∀ t ∈ d.tokens, ∀ s, t.repl = some s → '\r' ∉ s
  lemma' : ∀ t ∈ d.tokens, ∀ s, t.lemma' = some s → '\r' ∉ s
  deprel : ∀ t ∈ d.tokens, ∀ s, t.deprel = some s → '\r' ∉ s
  pos : ∀ t ∈ d.tokens, ∀ p, t.pos = some p → (∀ s, p.upos = some s → '\r' ∉ s) ∧
    (∀ s, p.xpos = some s → '\r' ∉ s) ∧ ∀ e ∈ p.feats.entries, '\r' ∉ e.1 ∧ '\r' ∉ e.2

/-- The line ends that occur: of Unix, of Windows and of old Macs. -/
def IsEol (eol : Str) : Prop := eol = ['\n'] ∨ eol = ['\r', '\n'] ∨ eol = ['\r']

end Verif
