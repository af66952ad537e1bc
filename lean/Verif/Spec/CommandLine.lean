import Verif.Model.CommandLine

/-! # Command lines, as a user would describe them -/

namespace Verif

/-- `s` stands for an option: it is its name, or an abbreviation that begins no other name. -/
def NamesOpt (opts : List Opt) (s : Str) (o : Opt) : Prop :=
  o ∈ opts ∧ (s = o.name ∨ ("--".toList <+: s ∧ s <+: o.name ∧ ∀ o' ∈ opts, s <+: o'.name → o' = o))

/-- A minus sign and digits, with or without a decimal point. -/
def NegativeNumber (v : Str) : Prop :=
  ∃ ds, v = '-' :: ds ∧ ((ds ≠ [] ∧ ∀ c ∈ ds, c.isDigit = true) ∨
    ∃ a b, ds = a ++ '.' :: b ∧ b ≠ [] ∧ (∀ c ∈ a, c.isDigit = true) ∧ ∀ c ∈ b, c.isDigit = true)

/-- `v` can be given to an option as the next argument: it does not begin with `-`, or is nothing but `-`, or is a negative number or has a
space and does not look like an option. -/
def FreeWord (opts : List Opt) (v : Str) : Prop :=
  v.head? ≠ some '-' ∨ v = ['-'] ∨
    ((NegativeNumber v ∨ ' ' ∈ v) ∧ ¬ "-h".toList <+: v ∧
      ∀ o ∈ opts, ∀ s, "--".toList <+: s → s <+: o.name → v ≠ s ∧ ∀ w, v ≠ s ++ '=' :: w)

/-- The arguments that give a value to an option: `--option value` or `--option=value`, or that set the flag. -/
inductive SpelledOpt (opts : List Opt) : Opt × Str → List Str → Prop
  | flag {s : Str} (h : NamesOpt opts s .deleteAfter) : SpelledOpt opts (.deleteAfter, []) [s]
  | joined {o : Opt} {s v : Str} (ho : o.takesValue = true) (h : NamesOpt opts s o) : SpelledOpt opts (o, v) [s ++ '=' :: v]
  | apart {o : Opt} {s v : Str} (ho : o.takesValue = true) (h : NamesOpt opts s o) (hv : FreeWord opts v) :
      SpelledOpt opts (o, v) [s, v]

/-- A command line that gives options one after the other. -/
def Spells (opts : List Opt) (items : List (Opt × Str)) (argv : List Str) : Prop :=
  ∃ pieces, List.Forall₂ (SpelledOpt opts) items pieces ∧ argv = pieces.flatten

/-- The last value given to an option. -/
def lastValue (o : Opt) (items : List (Opt × Str)) : Option Str := ((items.filter (·.1 = o)).getLast?).map Prod.snd

/-- What the options mean. -/
def meant (items : List (Opt × Str)) : CliArgs :=
  ⟨lastValue .settings items, lastValue .method items, lastValue .hyperparams items, lastValue .grid items,
    items.any (·.1 = .deleteAfter)⟩

end Verif
