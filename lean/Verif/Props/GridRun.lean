import Verif.Model.GridRun
import Verif.Props.Grid
import Verif.Props.EvalRun

/-!
# Properties of the grid search program (C109)
-/

namespace Verif

variable {τ : Type}

/-- C109: a grid in which a name has no values, has values for different settings, or shares its setting
with another name is refused with a `ValueError` before anything is written, removed or trained. -/
theorem C109_invalid (n : Nat) (a : RunArgs Json τ) (grid : List (Str × List (List (Str × Json))))
    (base : List (Str × Json)) (disk : List (List Str))
    (h : ¬ ((∀ e ∈ grid, e.2 ≠ [] ∧ ∀ a ∈ e.2, ∀ b ∈ e.2, SameSetting a b) ∧
      grid.Pairwise (fun e e' => ∀ a ∈ e.2, ∀ b ∈ e'.2, ¬ SameSetting a b))) :
    gridMain n a grid base disk = ⟨[], .error .value⟩ := by
  obtain ⟨h1, h2⟩ := C81_check_partial grid
  have h3 : checkGrid grid = .error .value := by
    rcases h1 with h1 | h1
    · exact absurd (h2.mp h1) h
    · exact h1
  unfold gridMain
  rw [h3]; rfl

/-- C109: nothing that was on the disk before is lost, except for an empty model directory. -/
theorem C109_safe (n : Nat) (a : RunArgs Json τ) (grid : List (Str × List (List (Str × Json))))
    (base : List (Str × Json)) (disk : List (List Str)) {p : List Str} (hp : p ∈ disk)
    (hne : p ≠ a.modelDir) : p ∈ dirAfter disk (gridMain n a grid base disk).events := by
  unfold gridMain
  cases checkGrid grid with
  | error e => exact hp
  | ok _ =>
    cases hg : gridParams n (grid.map fun e => (e.1, e.2.map Json.obj)) (.obj base) with
    | error e => exact hp
    | ok ps =>
      rcases C102_safe ({ a with deleteAfter := true, hyperparams := .inr ps } : RunArgs Json τ) disk hp with
        h | ⟨_, h⟩
      · exact h
      · exact absurd h hne

/-- C109: a model directory that is not empty is refused even if the command line did not ask for
deletion. -/
theorem C109_refused (n : Nat) (a : RunArgs Json τ) (grid : List (Str × List (List (Str × Json))))
    (base : List (Str × Json)) (disk : List (List Str)) {p : List Str} (hp : p ∈ disk)
    (hin : a.modelDir <+: p) (hne : p ≠ a.modelDir) :
    ∃ e, gridMain n a grid base disk = ⟨[], .error e⟩ := by
  unfold gridMain
  cases checkGrid grid with
  | error e => exact ⟨e, rfl⟩
  | ok _ =>
    cases hg : gridParams n (grid.map fun e => (e.1, e.2.map Json.obj)) (.obj base) with
    | error e => exact ⟨e, rfl⟩
    | ok ps =>
      refine ⟨.value, ?_⟩
      have := C102_refused ({ a with deleteAfter := true, hyperparams := .inr ps } : RunArgs Json τ) disk rfl
        hp hin hne
      simp only [Tr.lift, Tr.bind, this, List.nil_append]

theorem forall₂_getElem?_right {α β : Type} {R : α → β → Prop} {l : List α} {m : List β}
    (h : List.Forall₂ R l m) {i : Nat} {y : β} (hy : m[i]? = some y) :
    ∃ x, l[i]? = some x ∧ R x y := by
  induction h generalizing i with
  | nil => simp at hy
  | cons hab _ ih =>
    cases i with
    | zero => simp only [List.getElem?_cons_zero, Option.some.injEq] at hy ⊢; subst hy; exact ⟨_, rfl, hab⟩
    | succ i => simpa using ih (by simpa using hy)

theorem forall₂_getElem?_left {α β : Type} {R : α → β → Prop} {l : List α} {m : List β}
    (h : List.Forall₂ R l m) {i : Nat} {x : α} (hx : l[i]? = some x) :
    ∃ y, m[i]? = some y ∧ R x y := by
  induction h generalizing i with
  | nil => simp at hx
  | cons hab _ ih =>
    cases i with
    | zero => simp only [List.getElem?_cons_zero, Option.some.injEq] at hx ⊢; subst hx; exact ⟨_, rfl, hab⟩
    | succ i => simpa using ih (by simpa using hx)

/-- C109 for grids that never put a dictionary in place of another value (see C54): a search that
succeeds has evaluated every combination of the values; the reported parameters are the base parameters
overridden by the first of the best combinations, the reported scores are theirs, and nothing is left of
the model directory.  If a combination names a parameter that does not exist, nothing is done.

Missing: grids that put a dictionary in place of another value, for which C54 fails. -/
theorem C109_partial {n : Nat} (a : RunArgs Json τ) {grid : List (Str × List (List (Str × Json)))}
    {base : List (Str × Json)} (disk : List (List Str))
    (hbase : (Json.obj base).WF) (hgrid : ∀ e ∈ grid, ∀ b ∈ e.2, (Json.obj b).WF) (fbase : Fits n (.obj base))
    (fgrid : ∀ e ∈ grid, ∀ b ∈ e.2, Fits n (.obj b))
    (hm : ∀ bs ∈ product (grid.map Prod.snd), DictsMeetAll base bs)
    {train : Str → Json → List (Round τ)} (ht : a.trainer = some train) (hpf : a.printFields ≠ []) :
    ((∃ bs ∈ product (grid.map Prod.snd), MissingAll base bs) →
      gridMain n a grid base disk = ⟨[], .error .value⟩) ∧
    ∀ fin, (gridMain n a grid base disk).value = .ok fin →
      (∃ (i : Nat) (bs : List (List (Str × Json))) (c : List (Str × Json)) (dev : ScoreTable)
          (sel : List (Nat × τ × ScoreTable)),
        (product (grid.map Prod.snd))[i]? = some bs ∧ OverridesAll base bs c ∧
        fin.params = some (.obj c) ∧ fin.dev = some dev ∧
        SelectedFor a train (.obj c) sel ∧ Together a (sel.map (fun x => x.2.2)) dev ∧
        (∀ (j : Nat) (bs' : List (List (Str × Json))), (product (grid.map Prod.snd))[j]? = some bs' → j ≠ i →
          ∃ c' other v w, OverridesAll base bs' c' ∧ DevScores a train (.obj c') other ∧
            TotalIs a.cmpFields a.cmpMetric other v ∧ TotalIs a.cmpFields a.cmpMetric dev w ∧
            (j < i → v < w) ∧ (i < j → v ≤ w)) ∧
        (∀ test, a.test = some test → ∃ ts t, List.Forall₂ (fun x y => (test (some x.2.1)).2 = .ok y) sel ts ∧
          Together a ts t ∧ fin.test = some t)) ∧
      ∀ p ∈ dirAfter disk (gridMain n a grid base disk).events, ¬ a.modelDir <+: p := by
  rcases C54_grid_partial (n := n) hbase hgrid fbase fgrid hm with ⟨h1, h2⟩ | ⟨rs, h1, h2⟩
  · refine ⟨fun _ => ?_, fun fin hf => ?_⟩
    · unfold gridMain
      rcases (C81_check_partial grid).1 with hc | hc
      · rw [hc, h1]; rfl
      · rw [hc]; rfl
    · exfalso
      unfold gridMain at hf
      rw [h1] at hf
      rcases (C81_check_partial grid).1 with hc | hc
      · rw [hc] at hf; cases hf
      · rw [hc] at hf; cases hf
  · constructor
    · rintro ⟨bs, hbs, hmiss⟩
      exfalso
      obtain ⟨i, hi⟩ := List.mem_iff_getElem?.mp hbs
      obtain ⟨c, _, hc⟩ := forall₂_getElem?_left h2 hi
      refine hmiss.not_overrides hbase ?_ c hc
      intro b hb
      rw [mem_product] at hbs
      obtain ⟨k, hk⟩ := List.mem_iff_getElem?.mp hb
      obtain ⟨l, hl, hbl⟩ := forall₂_getElem?_left hbs hk
      rw [List.getElem?_map, Option.map_eq_some_iff] at hl
      obtain ⟨e, he, rfl⟩ := hl
      exact hgrid e (List.mem_of_getElem? he) b hbl
    · intro fin hf
      have hmain : gridMain n a grid base disk =
          (match checkGrid grid with
            | .error e => ⟨[], .error e⟩
            | .ok _ => ({ a with deleteAfter := true, hyperparams := .inr (rs.map Json.obj) } :
                RunArgs Json τ).main disk) := by
        unfold gridMain
        rw [h1]
        cases checkGrid grid with
        | error e => rfl
        | ok _ => simp [Tr.lift, Tr.bind]
      cases hc : checkGrid grid with
      | error e => rw [hmain, hc] at hf; cases hf
      | ok _ =>
        rw [hc] at hmain
        simp only at hmain
        rw [hmain] at hf ⊢
        refine ⟨?_, C102_clean_partial _ disk rfl hf⟩
        obtain ⟨b, p, sel, dev, k1, k2, k3, k4, k5, k6, _, k8, _⟩ := C103_report
          ({ a with deleteAfter := true, hyperparams := .inr (rs.map Json.obj) } : RunArgs Json τ) disk
          (train := train) ht hpf hf
        simp only [hyperList, List.getElem?_map, Option.map_eq_some_iff] at k1 k6
        obtain ⟨c, hcb, rfl⟩ := k1
        obtain ⟨bs, hbs, hov⟩ := forall₂_getElem?_right h2 hcb
        refine ⟨b, bs, c, dev, sel, hbs, hov, k2, k3, k4, k5, ?_, k8⟩
        intro j bs' hj hne
        obtain ⟨c', hc', hov'⟩ := forall₂_getElem?_left h2 hj
        obtain ⟨other, v, w, q1, q2, q3, q4, q5⟩ := k6 j (.obj c') ⟨c', hc', rfl⟩ hne
        exact ⟨c', other, v, w, hov', q1, q2, q3, q4, q5⟩

namespace GridDemo

/-- One epoch per parameter set, scored by the value of `y`. -/
def searchArgs : RunArgs Json Nat where
  modelDir := [['m']]
  deleteAfter := false
  seeds := .one ['1']
  printFields := ["UPOS".toList]
  cmpFields := ["UPOS".toList]
  cmpMetric := "f1".toList
  devResults := none
  trainer := some (fun _ p => [⟨true, true, .ok (some (Demo.tab (match p with
    | .obj [_, (_, .atom v)] => if v = ['2'] then 1 else 1 / 2
    | _ => 0)), 7)⟩])
  testResults := none
  test := none
  hyperparams := .inr []

/-- The values of `x.p`, `x.q` and `y`. -/
def settingsOf : Option Json → List Str
  | some (.obj [(_, .obj [(_, .atom a), (_, .atom b)]), (_, .atom c)]) => [a, b, c]
  | _ => []

/-- The grid of C54: four combinations, the second is the first of the best. -/
example : ((gridMain 2 searchArgs grid base [[['d']]]).value.toOption.map (fun f => (settingsOf f.params, f.dev))) =
      some ([['1'], ['4'], ['2']], some (Demo.tab 1)) ∧
    dirAfter [[['d']]] (gridMain 2 searchArgs grid base [[['d']]]).events = [[['d']]] := by
  decide +kernel

end GridDemo

end Verif
