import Verif.Proofs.CommandLine
import Verif.Props.GridRun

/-! # C158: the command lines of the two programs -/

namespace Verif

/-- The two programs. -/
def ProgramOpts (opts : List Opt) : Prop := opts = evalOpts ∨ opts = gridOpts

theorem ProgramOpts.facts {opts : List Opt} (h : ProgramOpts opts) :
    opts.Nodup ∧ .shortHelp ∈ opts ∧ .settings ∈ opts ∧ .method ∈ opts := by
  rcases h with rfl | rfl <;> decide

/-- C158: a command line is accepted exactly if it gives options one after the other, each by its name or by an abbreviation that begins no
other name, values behind `=` or as the next argument; the last value of an option counts. -/
theorem C158_parse (opts : List Opt) (hp : ProgramOpts opts) (argv : List Str) (ns : CliArgs) :
    parseArgs opts {} argv = some ns ↔ ∃ items, Spells opts items argv ∧ ns = meant items := by
  obtain ⟨h1, h2, h3, h4⟩ := hp.facts
  constructor
  · intro h
    obtain ⟨items, g1, g2⟩ := parseArgs_spells h1 h2 argv {} ns h
    exact ⟨items, g1, g2.trans (applied_meant items)⟩
  · rintro ⟨items, ⟨pieces, g1, rfl⟩, rfl⟩
    rw [parseArgs_spelled h1 h2 h3 h4 g1, applied_meant]

theorem parse_meant {opts : List Opt} (hp : ProgramOpts opts) {items : List (Opt × Str)} {argv : List Str} (h : Spells opts items argv) :
    parseArgs opts {} argv = some (meant items) := (C158_parse opts hp argv _).2 ⟨items, h, rfl⟩

theorem lastValue_perm {items items' : List (Opt × Str)} (h : items.Perm items') (hn : (items.map Prod.fst).Nodup) (o : Opt) :
    lastValue o items = lastValue o items' := by
  have hf : (items.filter (·.1 = o)).Perm (items'.filter (·.1 = o)) := h.filter _
  have hle : (items.filter (·.1 = o)).length ≤ 1 := by
    have e : (items.filter (·.1 = o)).length = (items.map Prod.fst).count o := by
      rw [List.count_eq_countP, List.countP_map, List.countP_eq_length_filter]
      rfl
    rw [e]
    exact List.nodup_iff_count_le_one.1 hn o
  unfold lastValue
  generalize items.filter (·.1 = o) = l at hf hle
  match l, hle with
  | [], _ => rw [List.nil_perm.1 hf]
  | [x], _ => rw [List.singleton_perm.1 hf]

/-- C158: if no option is given twice, the order of the options, the spelling and abbreviations do not matter. -/
theorem C158_order {σ τ : Type} (depth : Nat) (files : ProgramFiles σ τ) (disk : List (List Str))
    (items items' : List (Opt × Str)) (argv argv' : List Str) (hperm : items.Perm items') (hn : (items.map Prod.fst).Nodup) :
    (Spells evalOpts items argv → Spells evalOpts items' argv' → evalProgram files argv disk = evalProgram files argv' disk) ∧
    (Spells gridOpts items argv → Spells gridOpts items' argv' → gridProgram depth files argv disk = gridProgram depth files argv' disk) := by
  have hm : meant items = meant items' := by
    have hany : items.any (·.1 = .deleteAfter) = items'.any (·.1 = .deleteAfter) := by
      rw [Bool.eq_iff_iff, List.any_eq_true, List.any_eq_true]
      exact ⟨fun ⟨x, h1, h2⟩ => ⟨x, hperm.mem_iff.1 h1, h2⟩, fun ⟨x, h1, h2⟩ => ⟨x, hperm.mem_iff.2 h1, h2⟩⟩
    unfold meant
    simp only [lastValue_perm hperm hn, hany]
  constructor
  · intro h h'
    rw [evalProgram, evalProgram, parse_meant (.inl rfl) h, parse_meant (.inl rfl) h', hm]
  · intro h h'
    rw [gridProgram, gridProgram, parse_meant (.inr rfl) h, parse_meant (.inr rfl) h', hm]

/-- C158: the evaluation program.  The settings are read first, then the hyperparameters; without one of the options there is a `TypeError`.
If they can be read, the run has the settings, method and hyperparameters that were given last, and deletes models iff the flag is given.
Nothing is written or removed before.  Other command lines end the program before any file is opened. -/
theorem C158_eval {σ τ : Type} (files : ProgramFiles σ τ) (argv : List Str) (disk : List (List Str)) :
    (∀ items, Spells evalOpts items argv →
      (lastValue .settings items = none → evalProgram files argv disk = some ⟨[], .error .type⟩) ∧
      (∀ path e, lastValue .settings items = some path → files.settings path = .error e →
        evalProgram files argv disk = some ⟨[], .error e⟩) ∧
      ∀ path s, lastValue .settings items = some path → files.settings path = .ok s →
        (lastValue .hyperparams items = none → evalProgram files argv disk = some ⟨[], .error .type⟩) ∧
        (∀ path' e, lastValue .hyperparams items = some path' → files.params path' = .error e →
          evalProgram files argv disk = some ⟨[], .error e⟩) ∧
        ∀ path' ps, lastValue .hyperparams items = some path' → files.params path' = .ok ps →
          ∃ a : RunArgs Json τ, evalProgram files argv disk = some (a.main disk) ∧ a.hyperparams = ps ∧
            (a.deleteAfter = true ↔ ∃ v, (Opt.deleteAfter, v) ∈ items) ∧
            ∃ b h, files.setup s (lastValue .method items) = { a with deleteAfter := b, hyperparams := h }) ∧
    ((¬ ∃ items, Spells evalOpts items argv) → evalProgram files argv disk = none) := by
  constructor
  · intro items h
    have e : evalProgram files argv disk = some ((Tr.lift (loadArgs files (meant items))).bind fun a => a.main disk) := by
      rw [evalProgram, parse_meant (.inl rfl) h]
      rfl
    have e1 : (meant items).settings = lastValue .settings items := rfl
    have e2 : (meant items).hypers = lastValue .hyperparams items := rfl
    refine ⟨?_, ?_, ?_⟩
    · intro h1
      rw [e, loadArgs, e1, h1]
      rfl
    · intro path x h1 h2
      rw [e, loadArgs, e1, h1, openArg, h2]
      rfl
    · intro path s h1 h2
      refine ⟨?_, ?_, ?_⟩
      · intro h3
        rw [e, loadArgs, e1, h1, openArg, h2, e2, h3]
        rfl
      · intro path' x h3 h4
        rw [e, loadArgs, e1, h1, openArg, h2, e2, h3]
        simp only [openArg, h4]
        rfl
      · intro path' ps h3 h4
        refine ⟨{ files.setup s (meant items).method with deleteAfter := (meant items).deleteAfter, hyperparams := ps }, ?_, rfl, ?_,
          (files.setup s (lastValue .method items)).deleteAfter, (files.setup s (lastValue .method items)).hyperparams, rfl⟩
        · rw [e, loadArgs, e1, h1, openArg, h2, e2, h3]
          simp only [openArg, h4]
          rfl
        · change items.any (·.1 = .deleteAfter) = true ↔ _
          rw [List.any_eq_true]
          constructor
          · rintro ⟨⟨o, v⟩, h5, h6⟩
            have h6 : o = .deleteAfter := of_decide_eq_true h6
            exact ⟨v, h6 ▸ h5⟩
          · rintro ⟨v, h5⟩
            exact ⟨_, h5, decide_eq_true rfl⟩
  · intro h
    rw [evalProgram, Option.map_eq_none_iff]
    cases hp : parseArgs evalOpts {} argv with
    | none => rfl
    | some ns =>
      obtain ⟨items, h1, _⟩ := (C158_parse _ (.inl rfl) _ _).1 hp
      exact absurd ⟨items, h1⟩ h

/-- C158: without `--delete_after` the evaluation program removes nothing: whatever was there and whatever it writes is there afterwards. -/
theorem C158_kept {σ τ : Type} (files : ProgramFiles σ τ) (argv : List Str) (disk : List (List Str)) (items : List (Opt × Str))
    (h : Spells evalOpts items argv) (hflag : ∀ x ∈ items, x.1 ≠ .deleteAfter) {r : Tr (Final Json)}
    (hr : evalProgram files argv disk = some r) {p : List Str} (hp : p ∈ disk ∨ Ev.save p ∈ r.events) : p ∈ dirAfter disk r.events := by
  have hdel : (meant items).deleteAfter = false := by
    change items.any (·.1 = .deleteAfter) = false
    rw [List.any_eq_false]
    intro x hx hc
    exact hflag x hx (of_decide_eq_true hc)
  rw [evalProgram, parse_meant (.inl rfl) h] at hr
  injection hr with hr
  replace hr : (Tr.lift (loadArgs files (meant items))).bind (fun a => a.main disk) = r := hr
  have hnil : ∀ e, (⟨[], .error e⟩ : Tr (Final Json)) = r → p ∈ dirAfter disk r.events := by
    rintro e rfl
    rcases hp with hp | hp
    · exact hp
    · cases hp
  rw [loadArgs] at hr
  cases h1 : openArg files.settings (meant items).settings with
  | error e => rw [h1] at hr; exact hnil e hr
  | ok s =>
    cases h2 : openArg files.params (meant items).hypers with
    | error e => rw [h1, h2] at hr; exact hnil e hr
    | ok ps =>
      rw [h1, h2] at hr
      replace hr : RunArgs.main _ disk = r := hr
      rw [← hr] at hp ⊢
      exact C102_kept _ disk hdel hp

/-- C158: the grid search program reads the grid first.  If everything can be read, the combinations are evaluated as the evaluation program
would evaluate a list of them with `--delete_after`, whether this flag is given or not. -/
theorem C158_grid {σ τ : Type} (depth : Nat) (files : ProgramFiles σ τ) (argv : List Str) (disk : List (List Str)) (items : List (Opt × Str))
    (h : Spells gridOpts items argv) :
    (lastValue .grid items = none → gridProgram depth files argv disk = some ⟨[], .error .type⟩) ∧
    (∀ path e, lastValue .grid items = some path → files.grid path = .error e →
      gridProgram depth files argv disk = some ⟨[], .error e⟩) ∧
    ∀ path grid, lastValue .grid items = some path → files.grid path = .ok grid →
      ∀ path₁ s path₂ base, lastValue .settings items = some path₁ → files.settings path₁ = .ok s →
        lastValue .hyperparams items = some path₂ → files.params path₂ = .ok (.inl (.obj base)) →
        (∀ e, checkGrid grid = .error e → gridProgram depth files argv disk = some ⟨[], .error e⟩) ∧
        (checkGrid grid = .ok () → ∀ ps, gridParams depth (grid.map fun e => (e.1, e.2.map Json.obj)) (.obj base) = .ok ps →
          ∀ (files' : ProgramFiles σ τ) (argv' : List Str) (list : Str), files'.settings = files.settings → files'.setup = files.setup →
            files'.params list = .ok (.inr ps) →
            Spells evalOpts ([(.settings, path₁), (.hyperparams, list), (.deleteAfter, [])] ++
              (lastValue .method items).toList.map fun m => (.method, m)) argv' →
            gridProgram depth files argv disk = evalProgram files' argv' disk) := by
  have e : gridProgram depth files argv disk = some ((Tr.lift (openArg files.grid (lastValue .grid items))).bind fun grid =>
      (Tr.lift (loadArgs files (meant items))).bind fun a =>
        match a.hyperparams with
        | .inl (.obj base) => gridMain depth a grid base disk
        | _ => .lift (.error .type)) := by
    rw [gridProgram, parse_meant (.inr rfl) h]
    rfl
  refine ⟨?_, ?_, ?_⟩
  · intro h1
    rw [e, h1]
    rfl
  · intro path x h1 h2
    rw [e, h1, openArg, h2]
    rfl
  · intro path grid h1 h2 path₁ s path₂ base h3 h4 h5 h6
    have hl : loadArgs files (meant items) =
        .ok { files.setup s (lastValue .method items) with deleteAfter := (meant items).deleteAfter, hyperparams := .inl (.obj base) } := by
      rw [loadArgs]
      have e1 : (meant items).settings = some path₁ := h3
      have e2 : (meant items).hypers = some path₂ := h5
      rw [e1, e2, openArg, h4, openArg, h6]
      rfl
    rw [e, h1, openArg, h2, hl]
    simp only [Tr.lift, Tr.bind, List.nil_append]
    constructor
    · intro x hx
      rw [gridMain, hx]
      rfl
    · intro hc ps hps files' argv' list g1 g2 g3 g4
      have hm : parseArgs evalOpts {} argv' = some ⟨some path₁, lastValue .method items, some list, none, true⟩ := by
        rw [parse_meant (.inl rfl) g4]
        cases lastValue .method items <;> rfl
      rw [gridMain, hc, hps, evalProgram, hm]
      simp only [Option.map_some, loadArgs, openArg, g1, g2, g3, h4, Tr.lift, Tr.bind, List.nil_append]

namespace GridDemo

/-- Every path leads to the files of the examples. -/
def allFiles : ProgramFiles Unit Nat where
  settings := fun _ => .ok ()
  params := fun _ => .ok (.inl (.obj base))
  grid := fun _ => .ok grid
  setup := fun _ _ => searchArgs

/-- A command line with an abbreviation and without `--delete_after`. -/
def gridLine : List Str := ["--set", "s.json", "--hyperparams=h.json", "--grid", "g.json"].map String.toList

def gridItems : List (Opt × Str) := [(.settings, "s.json".toList), (.hyperparams, "h.json".toList), (.grid, "g.json".toList)]

theorem gridLine_spells : Spells gridOpts gridItems gridLine := by
  refine ⟨[["--set".toList, "s.json".toList], ["--hyperparams=h.json".toList], ["--grid".toList, "g.json".toList]], ?_, by decide⟩
  refine .cons (.apart rfl ⟨by decide, .inr ⟨by decide, by decide, by decide⟩⟩ (.inl (by decide))) (.cons ?_ (.cons ?_ .nil))
  · exact .joined (s := "--hyperparams".toList) rfl ⟨by decide, .inl rfl⟩
  · exact .apart rfl ⟨by decide, .inl rfl⟩ (.inl (by decide))

end GridDemo

/-- C158: models are not kept by the grid search program, although `--delete_after` is not given. -/
theorem C158_grid_kept_refuted : ¬ ∀ (files : ProgramFiles Unit Nat) (argv : List Str) (disk : List (List Str)) (items : List (Opt × Str)),
    Spells gridOpts items argv → (∀ x ∈ items, x.1 ≠ .deleteAfter) → ∀ r, gridProgram 2 files argv disk = some r →
      ∀ p, Ev.save p ∈ r.events → p ∈ dirAfter disk r.events := by
  intro h
  have hx := h GridDemo.allFiles GridDemo.gridLine [[['d']]] _ GridDemo.gridLine_spells (by decide)
  have hs : (gridProgram 2 GridDemo.allFiles GridDemo.gridLine [[['d']]]).map (fun r =>
      (decide (Ev.save [['m'], paramsName 0, ['1'], epochName 0] ∈ r.events),
        decide ([['m'], paramsName 0, ['1'], epochName 0] ∈ dirAfter [[['d']]] r.events))) = some (true, false) := by decide +kernel
  cases hg : gridProgram 2 GridDemo.allFiles GridDemo.gridLine [[['d']]] with
  | none => rw [hg] at hs; cases hs
  | some r =>
    rw [hg] at hs
    simp only [Option.map_some, Option.some.injEq, Prod.mk.injEq, decide_eq_true_eq, decide_eq_false_iff_not] at hs
    exact hs.2 (hx r hg _ hs.1)

namespace GridDemo

/-- The same options for the evaluation program in another order and spelling, with a flag. -/
def evalLine : List Str := ["--delete", "--hyper", "h.json", "--settings=s.json", "--method", "-1"].map String.toList

def evalItems : List (Opt × Str) := [(.deleteAfter, []), (.hyperparams, "h.json".toList), (.settings, "s.json".toList), (.method, "-1".toList)]

theorem minusOne_free : FreeWord evalOpts "-1".toList := by
  refine .inr (.inr ⟨.inl ⟨['1'], rfl, .inl ⟨by decide, by decide⟩⟩, by decide, ?_⟩)
  intro o _ s hs _
  obtain ⟨t, rfl⟩ := hs
  refine ⟨?_, fun w => ?_⟩
  · intro e; injection e with _ e; injection e with e; exact absurd e (by decide)
  · intro e; injection e with _ e; injection e with e; exact absurd e (by decide)

theorem evalLine_spells : Spells evalOpts evalItems evalLine := by
  refine ⟨[["--delete".toList], ["--hyper".toList, "h.json".toList], ["--settings=s.json".toList], ["--method".toList, "-1".toList]], ?_, by decide⟩
  refine .cons (.flag ⟨by decide, .inr ⟨by decide, by decide, by decide⟩⟩) (.cons ?_ (.cons ?_ (.cons ?_ .nil)))
  · exact .apart rfl ⟨by decide, .inr ⟨by decide, by decide, by decide⟩⟩ (.inl (by decide))
  · exact .joined (s := "--settings".toList) rfl ⟨by decide, .inl rfl⟩
  · exact .apart rfl ⟨by decide, .inl rfl⟩ minusOne_free

end GridDemo

example : parseArgs evalOpts {} GridDemo.evalLine =
    some ⟨some "s.json".toList, some "-1".toList, some "h.json".toList, none, true⟩ :=
  (C158_parse _ (.inl rfl) _ _).2 ⟨_, GridDemo.evalLine_spells, by decide⟩

/-- `--h` could be `--help` or `--hyperparams`; `--settings` needs a value; there are no other arguments. -/
example : parseArgs evalOpts {} (["--h", "x"].map String.toList) = none ∧ parseArgs evalOpts {} (["--settings"].map String.toList) = none ∧
    parseArgs evalOpts {} (["--settings", "--method", "m"].map String.toList) = none ∧ parseArgs evalOpts {} (["x"].map String.toList) = none ∧
    parseArgs evalOpts {} (["--grid", "x"].map String.toList) = none := by decide +kernel

/-- An option in another place. -/
example : evalProgram GridDemo.allFiles GridDemo.evalLine [] = evalProgram GridDemo.allFiles
    (["--settings", "s.json", "--method", "-1", "--hyperparams", "h.json", "--delete_after"].map String.toList) [] := by
  refine (C158_order 2 GridDemo.allFiles [] GridDemo.evalItems
    [(.settings, "s.json".toList), (.method, "-1".toList), (.hyperparams, "h.json".toList), (.deleteAfter, [])] _ _ (by decide) (by decide)).1
    GridDemo.evalLine_spells ?_
  refine ⟨[["--settings".toList, "s.json".toList], ["--method".toList, "-1".toList], ["--hyperparams".toList, "h.json".toList],
    ["--delete_after".toList]], ?_, by decide⟩
  exact .cons (.apart rfl ⟨by decide, .inl rfl⟩ (.inl (by decide))) (.cons (.apart rfl ⟨by decide, .inl rfl⟩ GridDemo.minusOne_free)
    (.cons (.apart rfl ⟨by decide, .inl rfl⟩ (.inl (by decide))) (.cons (.flag ⟨by decide, .inl rfl⟩) .nil)))

/-- The run of `GridDemo.gridLine`, as a run of the evaluation program. -/
example (ps : List Json) (hps : gridParams 2 (GridDemo.grid.map fun e => (e.1, e.2.map Json.obj)) (.obj GridDemo.base) = .ok ps) :
    gridProgram 2 GridDemo.allFiles GridDemo.gridLine [] = evalProgram { GridDemo.allFiles with params := fun _ => .ok (.inr ps) }
      (["--settings", "s.json", "--hyperparams", "list.json", "--delete_after"].map String.toList) [] := by
  refine ((C158_grid 2 GridDemo.allFiles GridDemo.gridLine [] _ GridDemo.gridLine_spells).2.2 _ _ rfl rfl _ _ _ _ rfl rfl rfl rfl).2
    (by decide +kernel) ps hps _ _ "list.json".toList rfl rfl rfl
    ⟨[["--settings".toList, "s.json".toList], ["--hyperparams".toList, "list.json".toList], ["--delete_after".toList]], ?_, by decide⟩
  exact .cons (.apart rfl ⟨by decide, .inl rfl⟩ (.inl (by decide))) (.cons (.apart rfl ⟨by decide, .inl rfl⟩ (.inl (by decide)))
    (.cons (.flag ⟨by decide, .inl rfl⟩) .nil))

/-- Without the flag the model of the only epoch is kept. -/
example : ∃ r, evalProgram GridDemo.allFiles (["--settings", "s.json", "--hyperparams=h.json"].map String.toList) [] = some r ∧
    [['m'], paramsName 0, ['1'], epochName 0] ∈ dirAfter [] r.events := by
  have hs : (evalProgram GridDemo.allFiles (["--settings", "s.json", "--hyperparams=h.json"].map String.toList) []).map (fun r =>
      decide (Ev.save [['m'], paramsName 0, ['1'], epochName 0] ∈ r.events)) = some true := by decide +kernel
  cases hg : evalProgram GridDemo.allFiles (["--settings", "s.json", "--hyperparams=h.json"].map String.toList) [] with
  | none => rw [hg] at hs; cases hs
  | some r =>
    rw [hg] at hs
    injection hs with hs
    refine ⟨r, rfl, C158_kept GridDemo.allFiles _ [] [(.settings, "s.json".toList), (.hyperparams, "h.json".toList)]
      ⟨[["--settings".toList, "s.json".toList], ["--hyperparams=h.json".toList]], ?_, by decide⟩ (by decide) hg (.inr (of_decide_eq_true hs))⟩
    exact .cons (.apart rfl ⟨by decide, .inl rfl⟩ (.inl (by decide)))
      (.cons (.joined (s := "--hyperparams".toList) rfl ⟨by decide, .inl rfl⟩) .nil)

end Verif
