import Verif.Spec.Evaluation
import Verif.Proofs.PyLemmas
import Verif.Proofs.Text
import Mathlib.Data.List.Induction
import Mathlib.Algebra.Order.BigOperators.Group.List

/-! Facts about the selection loops. -/

namespace Verif

/-! ### Names -/

theorem natStr_inj {a b : Nat} (h : natStr a = natStr b) : a = b := by
  have h1 := parseDigits_natStr a
  rw [h, parseDigits_natStr b] at h1
  injection h1 with h1
  exact h1.symm

theorem epochName_inj {a b : Nat} (h : epochName a = epochName b) : a = b :=
  natStr_inj (List.append_cancel_left h)

theorem paramsName_inj {a b : Nat} (h : paramsName a = paramsName b) : a = b :=
  natStr_inj (List.append_cancel_left h)

/-! ### Totals -/

theorem AttrIs.unique {m : Str} {s : Score} {a b : Rat} (h : AttrIs m s a) (h' : AttrIs m s b) :
    a = b := by
  have key : ∀ {m : Str} {x : Rat}, AttrIs m s x → scoreAttr m s = .ok (some x) := by
    intro m x hx
    cases hx with
    | precision => rfl
    | recall => rfl
    | f1 => rfl
    | aligned _ v hv =>
      show (Except.ok s.aligned : Res (Option Rat)) = .ok (some x)
      rw [hv]
  have h1 := key h
  rw [key h'] at h1
  injection h1 with h1
  injection h1 with h1
  exact h1.symm

theorem scoreAttr_iff {m : Str} {s : Score} {x : Rat} : scoreAttr m s = .ok (some x) ↔ AttrIs m s x := by
  constructor
  · intro h
    unfold scoreAttr at h
    by_cases h1 : m = "precision".toList
    · rw [if_pos h1] at h; injection h with h; injection h with h; rw [h1, ← h]; exact .precision s
    rw [if_neg h1] at h
    by_cases h2 : m = "recall".toList
    · rw [if_pos h2] at h; injection h with h; injection h with h; rw [h2, ← h]; exact .recall s
    rw [if_neg h2] at h
    by_cases h3 : m = "f1".toList
    · rw [if_pos h3] at h; injection h with h; injection h with h; rw [h3, ← h]; exact .f1 s
    rw [if_neg h3] at h
    by_cases h4 : m = "aligned_accuracy".toList
    · rw [if_pos h4] at h; injection h with h; rw [h4]; exact .aligned s x h
    rw [if_neg h4] at h; cases h
  · intro hx
    cases hx with
    | precision => rfl
    | recall => rfl
    | f1 => rfl
    | aligned _ v hv =>
      show (Except.ok s.aligned : Res (Option Rat)) = .ok (some x)
      rw [hv]

theorem scoreAdd_ok {m : Str} {t : ScoreTable} {acc v : Rat} {f : Str} :
    scoreAdd m t acc f = .ok v ↔ ∃ s x, t.get? f = some s ∧ AttrIs m s x ∧ v = acc + x := by
  unfold scoreAdd
  cases h : t.get? f with
  | none => simp
  | some s =>
    simp only [Option.some.injEq]
    cases h2 : scoreAttr m s with
    | error e =>
      simp only [reduceCtorEq, false_iff]
      rintro ⟨s', x, rfl, hx, _⟩
      rw [scoreAttr_iff.mpr hx] at h2; cases h2
    | ok o =>
      cases o with
      | none =>
        simp only [reduceCtorEq, false_iff]
        rintro ⟨s', x, rfl, hx, _⟩
        rw [scoreAttr_iff.mpr hx] at h2; cases h2
      | some x =>
        simp only [Except.ok.injEq]
        constructor
        · rintro rfl; exact ⟨s, x, rfl, scoreAttr_iff.mp h2, rfl⟩
        · rintro ⟨s', x', rfl, hx, rfl⟩
          rw [hx.unique (scoreAttr_iff.mp h2)]

theorem scoreSum_fold {m : Str} {t : ScoreTable} {fields : List Str} {acc v : Rat} :
    forM' (scoreAdd m t) acc fields = .ok v ↔ ∃ w, TotalIs fields m t w ∧ v = acc + w := by
  induction fields generalizing acc with
  | nil =>
    simp only [forM', Except.ok.injEq, TotalIs, List.forall₂_nil_left_iff]
    constructor
    · rintro rfl; exact ⟨0, ⟨[], rfl, rfl⟩, by simp⟩
    · rintro ⟨w, ⟨vs, rfl, rfl⟩, rfl⟩; simp
  | cons f fields ih =>
    simp only [forM']
    constructor
    · intro h
      cases h1 : scoreAdd m t acc f with
      | error e => rw [h1] at h; cases h
      | ok a =>
        rw [h1] at h
        obtain ⟨s, x, e1, e2, rfl⟩ := scoreAdd_ok.mp h1
        obtain ⟨w, ⟨vs, h3, rfl⟩, rfl⟩ := ih.mp h
        exact ⟨x + vs.sum, ⟨x :: vs, .cons ⟨s, e1, e2⟩ h3, by simp⟩, by rw [Rat.add_assoc]⟩
    · rintro ⟨w, ⟨vs, h3, rfl⟩, rfl⟩
      obtain ⟨x, vs', ⟨s, e1, e2⟩, h4, rfl⟩ := List.forall₂_cons_left_iff.mp h3
      rw [scoreAdd_ok.mpr ⟨s, x, e1, e2, rfl⟩]
      refine ih.mpr ⟨vs'.sum, ⟨vs', h4, rfl⟩, ?_⟩
      rw [List.sum_cons, Rat.add_assoc]

theorem scoreSum_ok {m : Str} {t : ScoreTable} {fields : List Str} {v : Rat} :
    scoreSum fields m (some t) = .ok v ↔ TotalIs fields m t v := by
  show forM' (scoreAdd m t) 0 fields = .ok v ↔ _
  rw [scoreSum_fold]
  constructor
  · rintro ⟨w, h, rfl⟩; simpa using h
  · intro h; exact ⟨v, h, by simp⟩

theorem TotalIs.unique {fields : List Str} {m : Str} {t : ScoreTable} {a b : Rat}
    (h : TotalIs fields m t a) (h' : TotalIs fields m t b) : a = b := by
  have h1 := scoreSum_ok.mpr h
  rw [scoreSum_ok.mpr h'] at h1
  injection h1 with h1
  exact h1.symm

theorem scoreBetter_ok {m : Str} {t t' : ScoreTable} {fields : List Str} {b : Bool} :
    scoreBetter fields m (some t) (some t') = .ok b ↔
      ∃ v v', TotalIs fields m t v ∧ TotalIs fields m t' v' ∧ (b = true ↔ v' < v) := by
  unfold scoreBetter
  constructor
  · intro h
    cases h1 : scoreSum fields m (some t) with
    | error e => rw [h1] at h; cases h
    | ok v =>
      cases h2 : scoreSum fields m (some t') with
      | error e => rw [h1, h2] at h; cases h
      | ok v' =>
        rw [h1, h2] at h
        injection h with h
        exact ⟨v, v', scoreSum_ok.mp h1, scoreSum_ok.mp h2, by rw [← h]; simp⟩
  · rintro ⟨v, v', h1, h2, h3⟩
    rw [scoreSum_ok.mpr h1, scoreSum_ok.mpr h2]
    simp only [Except.ok.injEq]
    cases b with
    | true => simpa using h3
    | false => simpa using h3

/-! ### Runs -/

/-- The selection loop after the candidates `cs`: value, scores and changes each. -/
inductive Run {τ : Type} (better : Option ScoreTable → Option ScoreTable → Res Bool)
    (pathOf : Nat → List Str) : List (τ × Option ScoreTable × List Ev) → Sel τ → Prop
  | nil : Run better pathOf [] {}
  | snoc {cs : List (τ × Option ScoreTable × List Ev)} {st st' : Sel τ}
      {c : τ × Option ScoreTable × List Ev} : Run better pathOf cs st →
      st.step better pathOf c.1 c.2.1 c.2.2 = .ok st' → Run better pathOf (cs ++ [c]) st'

variable {τ : Type} {better : Option ScoreTable → Option ScoreTable → Res Bool}
  {pathOf : Nat → List Str}

theorem step_cases {st st' : Sel τ} {c : τ} {s : Option ScoreTable} {d : List Ev}
    (h : st.step better pathOf c s d = .ok st') :
    (isBetter better s st.scores = .ok true ∧
      st' = ⟨st.index + 1, some c, s, some (pathOf st.index),
        st.events ++ d ++ st.path.toList.map Ev.remove⟩) ∨
    (isBetter better s st.scores = .ok false ∧
      st' = ⟨st.index + 1, st.best, st.scores, st.path,
        st.events ++ d ++ [.remove (pathOf st.index)]⟩) := by
  unfold Sel.step at h
  cases h1 : isBetter better s st.scores with
  | error e => rw [h1] at h; cases h
  | ok b =>
    rw [h1] at h
    cases b with
    | true => injection h with h; exact .inl ⟨rfl, h.symm⟩
    | false => injection h with h; exact .inr ⟨rfl, h.symm⟩

theorem Run.index {cs : List (τ × Option ScoreTable × List Ev)} {st : Sel τ}
    (h : Run better pathOf cs st) : st.index = cs.length := by
  induction h with
  | nil => rfl
  | snoc _ hs ih =>
    rcases step_cases hs with ⟨_, rfl⟩ | ⟨_, rfl⟩ <;> simp [ih]

/-- The stored best is one of the candidates, with its own scores and path. -/
theorem Run.stored {cs : List (τ × Option ScoreTable × List Ev)} {st : Sel τ}
    (h : Run better pathOf cs st) : cs = [] ∧ st = {} ∨
      ∃ (e : Nat) (c : τ × Option ScoreTable × List Ev), cs[e]? = some c ∧ st.best = some c.1 ∧
        st.scores = c.2.1 ∧ st.path = some (pathOf e) := by
  induction h with
  | nil => exact .inl ⟨rfl, rfl⟩
  | @snoc cs st st' c hr hs ih =>
    right
    have hi := hr.index
    rcases step_cases hs with ⟨_, rfl⟩ | ⟨h1, rfl⟩
    · exact ⟨cs.length, c, by simp, rfl, rfl, by rw [hi]⟩
    · rcases ih with ⟨rfl, rfl⟩ | ⟨e, c', h2, h3, h4, h5⟩
      · simp [isBetter] at h1
      · refine ⟨e, c', ?_, h3, h4, h5⟩
        rw [List.getElem?_append_left (List.getElem?_eq_some_iff.mp h2).1]
        exact h2

/-- With the comparison of totals the stored best is the earliest candidate with maximal total. -/
theorem Run.best {fields : List Str} {m : Str} {cs : List (τ × Option ScoreTable × List Ev)}
    {st : Sel τ} (h : Run (scoreBetter fields m) pathOf cs st) (hs : ∀ c ∈ cs, c.2.1.isSome)
    (hne : cs ≠ []) :
    ∃ (e : Nat) (c : τ × Option ScoreTable × List Ev) (te : ScoreTable), cs[e]? = some c ∧
      st.best = some c.1 ∧ st.scores = some te ∧ c.2.1 = some te ∧ st.path = some (pathOf e) ∧
      ∀ (i : Nat) (c' : τ × Option ScoreTable × List Ev), cs[i]? = some c' → i ≠ e →
        ∃ ti vi ve, c'.2.1 = some ti ∧ TotalIs fields m ti vi ∧ TotalIs fields m te ve ∧
          (i < e → vi < ve) ∧ (e < i → vi ≤ ve) := by
  induction h with
  | nil => exact absurd rfl hne
  | @snoc cs st st' c hr hstep ih =>
    obtain ⟨tc, htc⟩ := Option.isSome_iff_exists.mp (hs c (by simp))
    have hi := hr.index
    by_cases hcs : cs = []
    · subst hcs
      cases hr.stored with
      | inr h => obtain ⟨e, c', h, _⟩ := h; simp at h
      | inl h =>
        obtain ⟨_, rfl⟩ := h
        rcases step_cases hstep with ⟨_, rfl⟩ | ⟨h1, _⟩
        · refine ⟨0, c, tc, by simp, rfl, htc, htc, rfl, ?_⟩
          intro i c' h2 h3
          have := (List.getElem?_eq_some_iff.mp h2).1
          simp at this; omega
        · simp [isBetter] at h1
    · obtain ⟨e, ce, te, h1, h2, h3, h4, h5, h6⟩ := ih (fun c hc => hs c (by simp [hc])) hcs
      have he := (List.getElem?_eq_some_iff.mp h1).1
      rcases step_cases hstep with ⟨hb, rfl⟩ | ⟨hb, rfl⟩
      · rw [h3, htc] at hb
        obtain ⟨v, v', hv, hv', hlt⟩ := scoreBetter_ok.mp hb
        have hlt := hlt.mp rfl
        refine ⟨cs.length, c, tc, by simp, rfl, htc, htc, by rw [hi], ?_⟩
        intro i c' h7 h8
        have hil := (List.getElem?_eq_some_iff.mp h7).1
        simp only [List.length_append, List.length_singleton] at hil
        rw [List.getElem?_append_left (by omega)] at h7
        by_cases hie : i = e
        · subst hie
          rw [h1] at h7; injection h7 with h7
          refine ⟨te, v', v, h7 ▸ h4, hv', hv, fun _ => hlt, by omega⟩
        · obtain ⟨ti, vi, ve, g1, g2, g3, g4, g5⟩ := h6 i c' h7 hie
          have := g3.unique hv'
          subst this
          refine ⟨ti, vi, v, g1, g2, hv, fun _ => ?_, by omega⟩
          rcases Nat.lt_or_gt_of_ne hie with hlt' | hgt
          · exact lt_trans (g4 hlt') hlt
          · exact lt_of_le_of_lt (g5 hgt) hlt
      · rw [h3, htc] at hb
        obtain ⟨v, v', hv, hv', hlt⟩ := scoreBetter_ok.mp hb
        have hle : v ≤ v' := by
          by_contra hc
          have := hlt.mpr (lt_of_not_ge hc)
          cases this
        refine ⟨e, ce, te, by rw [List.getElem?_append_left he]; exact h1, h2, h3, h4, h5, ?_⟩
        intro i c' h7 h8
        have hil := (List.getElem?_eq_some_iff.mp h7).1
        simp only [List.length_append, List.length_singleton] at hil
        by_cases hin : i < cs.length
        · rw [List.getElem?_append_left hin] at h7
          exact h6 i c' h7 h8
        · have : i = cs.length := by omega
          subst this
          simp at h7
          subst h7
          exact ⟨tc, v, v', htc, hv, hv', by omega, fun _ => hle⟩

/-- Every candidate but the stored best has been removed once, the stored best never. -/
theorem Run.removed {cs : List (τ × Option ScoreTable × List Ev)} {st : Sel τ}
    (h : Run better pathOf cs st) (hinj : ∀ i j, pathOf i = pathOf j → i = j)
    (hd : ∀ c ∈ cs, ∀ i, Ev.remove (pathOf i) ∉ c.2.2) :
    cs = [] ∧ st = {} ∨ ∃ e : Nat, e < cs.length ∧ st.path = some (pathOf e) ∧
      ∀ i, st.events.count (.remove (pathOf i)) = if i < cs.length ∧ i ≠ e then 1 else 0 := by
  induction h with
  | nil => exact .inl ⟨rfl, rfl⟩
  | @snoc cs st st' c hr hs ih =>
    right
    have hi := hr.index
    have hc0 : ∀ i, c.2.2.count (.remove (pathOf i)) = 0 := fun i =>
      List.count_eq_zero.mpr (hd c (by simp) i)
    rcases ih (fun c hc => hd c (by simp [hc])) with ⟨rfl, rfl⟩ | ⟨e, h2, h3, h4⟩
    · rcases step_cases hs with ⟨_, rfl⟩ | ⟨h1, rfl⟩
      · refine ⟨0, by simp, rfl, ?_⟩
        intro i
        simp only [List.nil_append, Option.toList_none, List.map_nil, List.append_nil, hc0,
          List.length_singleton]
        rw [if_neg (by omega)]
      · simp [isBetter] at h1
    · rcases step_cases hs with ⟨_, rfl⟩ | ⟨h1, rfl⟩
      · refine ⟨cs.length, by simp, by rw [hi], ?_⟩
        intro i
        simp only [List.count_append, hc0, h4, h3, Option.toList_some, List.map_cons, List.map_nil,
          List.count_cons, List.count_nil, List.length_append, List.length_singleton]
        by_cases hie : i = e
        · subst hie; simp; omega
        · have : pathOf e ≠ pathOf i := fun h => hie (hinj _ _ h).symm
          simp [this, hie]
          by_cases h5 : i < cs.length
          · rw [if_pos h5, if_pos ⟨by omega, by omega⟩]
          · rw [if_neg h5, if_neg (by omega)]
      · refine ⟨e, by simp; omega, h3, ?_⟩
        intro i
        simp only [List.count_append, hc0, h4, hi,
          List.count_cons, List.count_nil, List.length_append, List.length_singleton]
        by_cases hin : i = cs.length
        · subst hin
          simp; omega
        · have : pathOf cs.length ≠ pathOf i := fun h => hin (hinj _ _ h).symm
          simp [this]
          by_cases h5 : i < cs.length ∧ i ≠ e
          · rw [if_pos h5, if_pos ⟨by omega, h5.2⟩]
          · rw [if_neg h5, if_neg (by omega)]

/-! ### The model directory -/

theorem dirAfter_append (dir : List (List Str)) (a b : List Ev) :
    dirAfter dir (a ++ b) = dirAfter (dirAfter dir a) b := by
  induction a generalizing dir with
  | nil => rfl
  | cons e a ih => cases e <;> simp [dirAfter, ih]

/-- Every change concerns something below `p`. -/
def Below (p : List Str) (evs : List Ev) : Prop :=
  ∀ ev ∈ evs, ∃ q, p <+: q ∧ (ev = .save q ∨ ev = .remove q)

theorem Below.nil (p : List Str) : Below p [] := by simp [Below]

theorem Below.append {p : List Str} {a b : List Ev} (h : Below p a) (h' : Below p b) :
    Below p (a ++ b) := by
  intro ev hev
  rcases List.mem_append.mp hev with h1 | h1
  · exact h ev h1
  · exact h' ev h1

theorem Below.mono {p p' : List Str} {a : List Ev} (h : Below p a) (hp : p' <+: p) : Below p' a := by
  intro ev hev
  obtain ⟨q, h1, h2⟩ := h ev hev
  exact ⟨q, hp.trans h1, h2⟩

theorem mem_dirAfter_split {p : List Str} {evs : List Ev} (h : Below p evs)
    {a b : List (List Str)} (ha : ∀ q ∈ a, ¬ p <+: q) (q : List Str) :
    q ∈ dirAfter (a ++ b) evs ↔ q ∈ a ∨ q ∈ dirAfter b evs := by
  induction evs generalizing b with
  | nil => simp [dirAfter]
  | cons ev evs ih =>
    obtain ⟨r, hr, hev⟩ := h ev (by simp)
    have h' : Below p evs := fun e he => h e (by simp [he])
    rcases hev with rfl | rfl
    · simp only [dirAfter, List.append_assoc]
      exact ih h'
    · simp only [dirAfter, List.filter_append]
      have : a.filter (fun q => !r.isPrefixOf q) = a := by
        rw [List.filter_eq_self]
        intro x hx
        simp only [Bool.not_eq_true']
        rw [Bool.eq_false_iff]
        intro hc
        exact ha x hx (hr.trans (List.isPrefixOf_iff_prefix.mp hc))
      rw [this]
      exact ih h'

theorem mem_dirAfter_below {p : List Str} {evs : List Ev} (h : Below p evs)
    {a : List (List Str)} (ha : ∀ q ∈ a, ¬ p <+: q) (q : List Str) :
    q ∈ dirAfter a evs ↔ q ∈ a ∨ q ∈ dirAfter [] evs := by
  have := mem_dirAfter_split h (a := a) (b := []) ha q
  simpa using this

theorem dirAfter_below {p : List Str} {evs : List Ev} (h : Below p evs) {b : List (List Str)}
    (hb : ∀ q ∈ b, p <+: q) : ∀ q ∈ dirAfter b evs, p <+: q := by
  induction evs generalizing b with
  | nil => exact hb
  | cons ev evs ih =>
    obtain ⟨r, hr, hev⟩ := h ev (by simp)
    have h' : Below p evs := fun e he => h e (by simp [he])
    rcases hev with rfl | rfl
    · simp only [dirAfter]
      refine ih h' ?_
      intro q hq
      rcases List.mem_append.mp hq with hq | hq
      · exact hb q hq
      · simp at hq; exact hq ▸ hr
    · simp only [dirAfter]
      exact ih h' (fun q hq => hb q (List.mem_of_mem_filter hq))

/-- After the loop the directory holds what the stored best left there, nothing else. -/
theorem Run.dir {cs : List (τ × Option ScoreTable × List Ev)} {st : Sel τ}
    (h : Run better pathOf cs st) (hinc : ∀ i j q, pathOf i <+: q → pathOf j <+: q → i = j)
    (hb : ∀ (i : Nat) (c : τ × Option ScoreTable × List Ev), cs[i]? = some c →
      Below (pathOf i) c.2.2) :
    cs = [] ∧ st = {} ∨ ∃ (e : Nat) (c : τ × Option ScoreTable × List Ev), cs[e]? = some c ∧
      st.path = some (pathOf e) ∧ st.best = some c.1 ∧ st.scores = c.2.1 ∧
      ∀ q, q ∈ dirAfter [] st.events ↔ q ∈ dirAfter [] c.2.2 := by
  induction h with
  | nil => exact .inl ⟨rfl, rfl⟩
  | @snoc cs st st' c hr hs ih =>
    right
    have hi := hr.index
    have hcb : Below (pathOf cs.length) c.2.2 := hb cs.length c (by simp)
    have hb' : ∀ (i : Nat) (c : τ × Option ScoreTable × List Ev), cs[i]? = some c →
        Below (pathOf i) c.2.2 := by
      intro i c' h1
      exact hb i c' (by rw [List.getElem?_append_left (List.getElem?_eq_some_iff.mp h1).1]; exact h1)
    rcases ih hb' with ⟨rfl, rfl⟩ | ⟨e, ce, h1, h2, h3, h4, h5⟩
    · rcases step_cases hs with ⟨_, rfl⟩ | ⟨h1, rfl⟩
      · exact ⟨0, c, by simp, rfl, rfl, rfl, by simp⟩
      · simp [isBetter] at h1
    · have he := (List.getElem?_eq_some_iff.mp h1).1
      have hold : ∀ q ∈ dirAfter [] st.events, pathOf e <+: q := fun q hq =>
        dirAfter_below (hb' e ce h1) (by simp) q ((h5 q).mp hq)
      have hnot : ∀ q ∈ dirAfter [] st.events, ¬ pathOf cs.length <+: q := by
        intro q hq hc
        have := hinc e cs.length q (hold q hq) hc
        omega
      have hmem : ∀ q, q ∈ dirAfter [] (st.events ++ c.2.2) ↔
          q ∈ dirAfter [] st.events ∨ q ∈ dirAfter [] c.2.2 := by
        intro q
        rw [dirAfter_append]
        exact mem_dirAfter_below hcb hnot q
      rcases step_cases hs with ⟨_, rfl⟩ | ⟨_, rfl⟩
      · refine ⟨cs.length, c, by simp, by rw [hi], rfl, rfl, ?_⟩
        intro q
        simp only [h2, Option.toList_some, List.map_cons, List.map_nil]
        rw [dirAfter_append]
        simp only [dirAfter, List.mem_filter, hmem]
        constructor
        · rintro ⟨h6 | h6, h7⟩
          · have := List.isPrefixOf_iff_prefix.mpr (hold q h6)
            simp [this] at h7
          · exact h6
        · intro h6
          refine ⟨.inr h6, ?_⟩
          simp only [Bool.not_eq_true', Bool.eq_false_iff]
          intro hc
          have := hinc e cs.length q (List.isPrefixOf_iff_prefix.mp hc)
            (dirAfter_below hcb (by simp) q h6)
          omega
      · refine ⟨e, ce, by rw [List.getElem?_append_left he]; exact h1, h2, h3, h4, ?_⟩
        intro q
        rw [dirAfter_append]
        simp only [dirAfter, List.mem_filter, hmem, hi]
        constructor
        · rintro ⟨h6 | h6, h7⟩
          · exact (h5 q).mp h6
          · have := List.isPrefixOf_iff_prefix.mpr (dirAfter_below hcb (by simp) q h6)
            simp [this] at h7
        · intro h6
          refine ⟨.inl ((h5 q).mpr h6), ?_⟩
          simp only [Bool.not_eq_true', Bool.eq_false_iff]
          intro hc
          exact hnot q ((h5 q).mpr h6) (List.isPrefixOf_iff_prefix.mp hc)

/-! ### The two loops are runs -/

/-- The candidates of one training run. -/
def epochCands (base : List Str) (items : List (Option ScoreTable × τ)) :
    List (τ × Option ScoreTable × List Ev) :=
  items.zipIdx.map (fun p => (p.1.2, p.1.1, [.save (base ++ [epochName p.2])]))

theorem epochCands_length (base : List Str) (items : List (Option ScoreTable × τ)) :
    (epochCands base items).length = items.length := by simp [epochCands]

theorem epochCands_getElem? (base : List Str) (items : List (Option ScoreTable × τ)) (i : Nat) :
    (epochCands base items)[i]? =
      items[i]?.map (fun p => (p.2, p.1, [.save (base ++ [epochName i])])) := by
  simp [epochCands, List.getElem?_zipIdx, Option.map_map, Function.comp_def]

theorem epochCands_snoc (base : List Str) (items : List (Option ScoreTable × τ))
    (p : Option ScoreTable × τ) : epochCands base (items ++ [p]) =
      epochCands base items ++ [(p.2, p.1, [.save (base ++ [epochName items.length])])] := by
  simp [epochCands, List.zipIdx_append]

theorem forM'_snoc {σ α : Type} {f : σ → α → Res σ} {s s' : σ} {l : List α} {a : α} :
    forM' f s (l ++ [a]) = .ok s' ↔ ∃ s1, forM' f s l = .ok s1 ∧ f s1 a = .ok s' := by
  rw [forM'_append]
  cases h : forM' f s l with
  | error e => simp
  | ok s1 =>
    simp only [forM', Except.ok.injEq, exists_eq_left']
    cases h2 : f s1 a with
    | error e => simp
    | ok s2 => simp

theorem epochs_run {printer : Option ScoreTable → Res Unit} {base : List Str}
    {items : List (Option ScoreTable × τ)} {st : Sel τ}
    (h : forM' (epochStep printer better base) {} items = .ok st) :
    Run better (fun i => base ++ [epochName i]) (epochCands base items) st := by
  induction items using List.reverseRecOn generalizing st with
  | nil => simp only [forM'] at h; injection h with h; subst h; exact .nil
  | append_singleton items p ih =>
    obtain ⟨s1, h1, h2⟩ := forM'_snoc.mp h
    have hr := ih h1
    rw [epochCands_snoc]
    refine .snoc hr ?_
    have hi := hr.index
    rw [epochCands_length] at hi
    unfold epochStep at h2
    cases h3 : printer p.1 with
    | error e => rw [h3] at h2; cases h2
    | ok u => rw [h3] at h2; rw [← hi]; exact h2

theorem singleEvaluate_ok {printer : Option ScoreTable → Res Unit} {seed : Str} {path : List Str}
    {items : List (Option ScoreTable × τ)} {failure : Option Err} {r : Option τ × Option ScoreTable × List Ev}
    (h : singleEvaluate printer better seed path items failure = .ok r) :
    failure = none ∧ ∃ st, forM' (epochStep printer better (path ++ [seed])) {} items = .ok st ∧
      printer st.scores = .ok () ∧ r = (st.best, st.scores, st.events) := by
  unfold singleEvaluate at h
  cases h1 : forM' (epochStep printer better (path ++ [seed])) {} items with
  | error e => rw [h1] at h; cases h
  | ok st =>
    rw [h1] at h
    cases failure with
    | some e => cases h
    | none =>
      simp only at h
      cases h2 : printer st.scores with
      | error e => rw [h2] at h; cases h
      | ok u =>
        rw [h2] at h
        injection h with h
        exact ⟨rfl, st, rfl, h2, h.symm⟩

theorem search_run {π μ : Type} {evaluator : π → List Str → EvalRes μ} {params : List π}
    {st : Sel (π × μ)} (h : paramsSearch better evaluator params = .ok st) :
    ∃ rs : List (μ × Option ScoreTable × List Ev),
      List.Forall₂ (fun (p : π × Nat) r => evaluator p.1 [paramsName p.2] = .ok r) params.zipIdx rs ∧
      Run better (fun i => [paramsName i])
        ((params.zip rs).map (fun p => ((p.1, p.2.1), p.2.2.1, p.2.2.2))) st := by
  unfold paramsSearch at h
  induction params using List.reverseRecOn generalizing st with
  | nil => simp only [forM'] at h; injection h with h; subst h; exact ⟨[], by simp, .nil⟩
  | append_singleton params p ih =>
    obtain ⟨s1, h1, h2⟩ := forM'_snoc.mp h
    obtain ⟨rs, h3, hr⟩ := ih h1
    have hlen : params.length = rs.length := by have := h3.length_eq; simpa using this
    have hi := hr.index
    simp only [List.length_map, List.length_zip, ← hlen, Nat.min_self] at hi
    unfold searchStep at h2
    cases h4 : evaluator p [paramsName s1.index] with
    | error e => rw [h4] at h2; cases h2
    | ok r =>
      rw [h4] at h2
      refine ⟨rs ++ [r], ?_, ?_⟩
      · rw [List.zipIdx_append]
        refine List.rel_append h3 ?_
        simp only [List.zipIdx_cons, List.zipIdx_nil, Nat.zero_add]
        exact .cons (by rw [← hi]; exact h4) .nil
      · rw [List.zip_append hlen, List.map_append]
        exact .snoc hr h2

/-! ### Success -/

theorem printMetrics_ok {metrics : List Str} {s : Option ScoreTable} :
    printMetrics metrics s = .ok () ↔ ∀ m ∈ metrics, ∃ t x, s = some t ∧ t.get? m = some x := by
  unfold printMetrics
  induction metrics with
  | nil => simp [forM']
  | cons m ms ih =>
    simp only [forM', List.mem_cons, forall_eq_or_imp, printMetric]
    cases s with
    | none => simp
    | some t =>
      simp only [Dict.getItem]
      cases h : t.get? m with
      | none =>
        simp only [reduceCtorEq, false_iff]
        rintro ⟨⟨t', x, h1, h2⟩, _⟩
        injection h1 with h1; subst h1; rw [h] at h2; cases h2
      | some x =>
        simp only
        constructor
        · intro h2; exact ⟨⟨t, x, rfl, h⟩, ih.mp h2⟩
        · intro h2; exact ih.mpr h2.2

theorem step_total {fields : List Str} {m : Str} {st : Sel τ} {c : τ} {t : ScoreTable} {d : List Ev}
    (ht : HasTotal fields m t) (hs : st.scores = none ∨ ∃ t', st.scores = some t' ∧ HasTotal fields m t') :
    ∃ st', st.step (scoreBetter fields m) pathOf c (some t) d = .ok st' ∧
      ∃ t', st'.scores = some t' ∧ (t' = t ∨ st.scores = some t') := by
  unfold Sel.step
  rcases hs with h | ⟨t', h, hc⟩
  · rw [h]
    exact ⟨_, rfl, t, rfl, .inl rfl⟩
  · obtain ⟨v, hv⟩ := ht
    obtain ⟨v', hv'⟩ := hc
    by_cases hlt : v' < v
    · have : isBetter (scoreBetter fields m) (some t) st.scores = .ok true := by
        rw [h]; exact scoreBetter_ok.mpr ⟨v, v', hv, hv', by simpa using hlt⟩
      rw [this]
      exact ⟨_, rfl, t, rfl, .inl rfl⟩
    · have : isBetter (scoreBetter fields m) (some t) st.scores = .ok false := by
        rw [h]; exact scoreBetter_ok.mpr ⟨v, v', hv, hv', by simpa using hlt⟩
      rw [this]
      exact ⟨_, rfl, t', h, .inr h⟩

/-! ### What is left in the model directory -/

theorem Run.removed_only {cs : List (τ × Option ScoreTable × List Ev)} {st : Sel τ}
    (h : Run better pathOf cs st) {p : List Str} (hp : Ev.remove p ∈ st.events) :
    (∃ i < cs.length, p = pathOf i) ∨ ∃ c ∈ cs, Ev.remove p ∈ c.2.2 := by
  induction h with
  | nil => simp at hp
  | @snoc cs st st' c hr hs ih =>
    have hi := hr.index
    have key : Ev.remove p ∈ st.events ∨ Ev.remove p ∈ c.2.2 ∨ p = pathOf cs.length ∨ st.path = some p := by
      rcases step_cases hs with ⟨_, rfl⟩ | ⟨_, rfl⟩
      · simp only [List.mem_append, List.mem_map, Option.mem_toList, Ev.remove.injEq] at hp
        rcases hp with (hp | hp) | ⟨x, hx, rfl⟩
        · exact .inl hp
        · exact .inr (.inl hp)
        · exact .inr (.inr (.inr hx))
      · simp only [List.mem_append, List.mem_singleton, Ev.remove.injEq] at hp
        rcases hp with (hp | hp) | hp
        · exact .inl hp
        · exact .inr (.inl hp)
        · exact .inr (.inr (.inl (hi ▸ hp)))
    rcases key with h1 | h1 | h1 | h1
    · rcases ih h1 with ⟨i, hi, hp⟩ | ⟨c', hc, hp⟩
      · exact .inl ⟨i, by simp; omega, hp⟩
      · exact .inr ⟨c', by simp [hc], hp⟩
    · exact .inr ⟨c, by simp, h1⟩
    · exact .inl ⟨cs.length, by simp, h1⟩
    · rcases hr.stored with ⟨_, rfl⟩ | ⟨e, c', h2, _, _, h5⟩
      · cases h1
      · rw [h5] at h1
        injection h1 with h1
        have := (List.getElem?_eq_some_iff.mp h2).1
        exact .inl ⟨e, by simp; omega, h1.symm⟩

theorem Run.changes_below {cs : List (τ × Option ScoreTable × List Ev)} {st : Sel τ}
    (h : Run better pathOf cs st) {base : List Str} (hp : ∀ i, base <+: pathOf i)
    (hb : ∀ c ∈ cs, Below base c.2.2) : Below base st.events := by
  induction h with
  | nil => exact .nil _
  | @snoc cs st st' c hr hs ih =>
    have h1 := ih (fun c hc => hb c (by simp [hc]))
    have h2 := hb c (by simp)
    rcases step_cases hs with ⟨_, rfl⟩ | ⟨_, rfl⟩
    · refine (h1.append h2).append ?_
      rcases hr.stored with ⟨_, rfl⟩ | ⟨e, c', _, _, _, h5⟩
      · exact .nil _
      · rw [h5]
        intro ev hev
        simp at hev
        exact ⟨pathOf e, hp e, .inr hev⟩
    · refine (h1.append h2).append ?_
      intro ev hev
      simp at hev
      exact ⟨pathOf st.index, hp _, .inr hev⟩

theorem prefix_snoc_inj {base : List Str} {a b : Str} {q : List Str} (h1 : base ++ [a] <+: q)
    (h2 : base ++ [b] <+: q) : a = b := by
  obtain ⟨u, hu⟩ := h1
  obtain ⟨v, hv⟩ := h2
  rw [← hv] at hu
  simp only [List.append_assoc, List.cons_append, List.nil_append] at hu
  have := List.append_cancel_left hu
  injection this

theorem epochCands_below (base : List Str) (items : List (Option ScoreTable × τ)) (i : Nat)
    (c : τ × Option ScoreTable × List Ev) (h : (epochCands base items)[i]? = some c) :
    Below (base ++ [epochName i]) c.2.2 := by
  rw [epochCands_getElem?, Option.map_eq_some_iff] at h
  obtain ⟨p, _, rfl⟩ := h
  intro ev hev
  simp at hev
  exact ⟨_, List.prefix_rfl, .inl (by rw [hev])⟩

/-- One seed: its changes stay below its own directory and only the stored best is left. -/
theorem single_dir {printer : Option ScoreTable → Res Unit} {seed : Str} {path : List Str}
    {items : List (Option ScoreTable × τ)} {failure : Option Err}
    {r : Option τ × Option ScoreTable × List Ev}
    (h : singleEvaluate printer better seed path items failure = .ok r) :
    Below (path ++ [seed]) r.2.2 ∧
    (items = [] ∧ r = (none, none, []) ∨ ∃ (e : Nat) (item : Option ScoreTable × τ),
      items[e]? = some item ∧ r.1 = some item.2 ∧ r.2.1 = item.1 ∧
      ∀ q, q ∈ dirAfter [] r.2.2 ↔ q = path ++ [seed] ++ [epochName e]) := by
  obtain ⟨_, st, h1, _, rfl⟩ := singleEvaluate_ok h
  have hr := epochs_run h1
  constructor
  · refine hr.changes_below (fun i => List.prefix_append _ _) ?_
    intro c hc
    obtain ⟨i, hi⟩ := List.mem_iff_getElem?.mp hc
    exact (epochCands_below _ _ i c hi).mono (List.prefix_append _ _)
  · rcases hr.dir (fun i j q h1 h2 => epochName_inj (prefix_snoc_inj h1 h2))
      (epochCands_below _ _) with ⟨h2, rfl⟩ | ⟨e, c, h2, h3, h4, h5, h6⟩
    · left
      refine ⟨?_, rfl⟩
      have := epochCands_length (path ++ [seed]) items
      rw [h2] at this
      exact List.length_eq_zero_iff.mp (by simpa using this.symm)
    · right
      rw [epochCands_getElem?, Option.map_eq_some_iff] at h2
      obtain ⟨item, h7, rfl⟩ := h2
      refine ⟨e, item, h7, h4, h5, ?_⟩
      intro q
      rw [h6 q]
      simp [dirAfter]

/-- Several seeds: the directories do not interfere. -/
theorem mem_dir_flatten {path : List Str} {seeds : List Str} (hn : seeds.Nodup)
    {evs : List (List Ev)} (h : List.Forall₂ (fun s e => Below (path ++ [s]) e) seeds evs)
    {a : List (List Str)} (ha : ∀ s ∈ seeds, ∀ q ∈ a, ¬ path ++ [s] <+: q) (q : List Str) :
    q ∈ dirAfter a evs.flatten ↔ q ∈ a ∨ ∃ e ∈ evs, q ∈ dirAfter [] e := by
  induction h generalizing a with
  | nil => simp [dirAfter]
  | @cons s e seeds evs h1 h2 ih =>
    have hn' := List.nodup_cons.mp hn
    rw [List.flatten_cons, dirAfter_append]
    have hm := mem_dirAfter_below h1 (ha s (by simp))
    rw [ih hn'.2]
    · rw [hm]
      simp [or_assoc]
    · intro s' hs' q hq hc
      rcases (hm q).mp hq with h3 | h3
      · exact ha s' (by simp [hs']) q h3 hc
      · have := dirAfter_below h1 (by simp) q h3
        exact hn'.1 (prefix_snoc_inj this hc ▸ hs')

theorem evaluator_dir {π : Type} {printer : Option ScoreTable → Res Unit}
    {averager : List (Option ScoreTable) → Res ScoreTable}
    {train : Str → π → List (Option ScoreTable × τ) × Option Err} {seeds : Seeds} {p : π}
    {path : List Str} {r : List (Option τ) × Option ScoreTable × List Ev}
    (hn : seeds.list.Nodup)
    (h : buildEvaluator printer better averager train seeds p path = .ok r) :
    Below path r.2.2 ∧ ∃ sel : List (Option Nat),
      List.Forall₂ (fun (x : Str × Option Nat) (t : Option τ) =>
        (x.2 = none ∧ (train x.1 p).1 = [] ∧ t = none) ∨
        ∃ (e : Nat) (item : Option ScoreTable × τ), x.2 = some e ∧ (train x.1 p).1[e]? = some item ∧
          t = some item.2) (seeds.list.zip sel) r.1 ∧ sel.length = seeds.list.length ∧
      ∀ q, q ∈ dirAfter [] r.2.2 ↔
        ∃ s e, (s, some e) ∈ seeds.list.zip sel ∧ q = path ++ [s] ++ [epochName e] := by
  cases seeds with
  | one seed =>
    simp only [buildEvaluator] at h
    cases h1 : singleEvaluate printer better seed path (train seed p).1 (train seed p).2 with
    | error e => rw [h1] at h; cases h
    | ok r1 =>
      rw [h1] at h
      injection h with h
      subst h
      obtain ⟨hb, hd⟩ := single_dir h1
      refine ⟨hb.mono (List.prefix_append _ _), ?_⟩
      rcases hd with ⟨h2, rfl⟩ | ⟨e, item, h2, h3, h4, h5⟩
      · refine ⟨[none], ?_, by simp [Seeds.list], by simp [Seeds.list, dirAfter]⟩
        simp [Seeds.list, h2]
      · refine ⟨[some e], ?_, by simp [Seeds.list], ?_⟩
        · simp only [Seeds.list, List.zip_cons_cons, List.zip_nil_left]
          exact .cons (.inr ⟨e, item, rfl, h2, h3⟩) .nil
        · intro q
          simp [h5 q, Seeds.list]
  | many seeds =>
    simp only [buildEvaluator, averageEvaluate] at h
    cases h1 : mapM' id (seeds.map (fun seed =>
      singleEvaluate printer better seed path (train seed p).1 (train seed p).2)) with
    | error e => rw [h1] at h; cases h
    | ok rs =>
      rw [h1] at h
      simp only at h
      cases h2 : averager (rs.map (fun r => r.2.1)) with
      | error e => rw [h2] at h; cases h
      | ok avg =>
        rw [h2] at h
        simp only at h
        cases h3 : printer (some avg) with
        | error e => rw [h3] at h; cases h
        | ok u =>
          rw [h3] at h
          injection h with h
          subst h
          rw [mapM'_ok_iff, List.forall₂_map_left_iff] at h1
          simp only [id] at h1
          simp only [Seeds.list] at hn ⊢
          have hsel : ∃ sel : List (Option Nat), sel.length = seeds.length ∧
              List.Forall₂ (fun (x : Str × Option Nat) (r : Option τ × Option ScoreTable × List Ev) =>
                ((x.2 = none ∧ (train x.1 p).1 = [] ∧ r.1 = none) ∨
                ∃ (e : Nat) (item : Option ScoreTable × τ), x.2 = some e ∧
                  (train x.1 p).1[e]? = some item ∧ r.1 = some item.2) ∧
                ∀ q, q ∈ dirAfter [] r.2.2 ↔ ∃ e, x.2 = some e ∧ q = path ++ [x.1] ++ [epochName e])
                (seeds.zip sel) rs := by
            clear hn h2 h3
            induction h1 with
            | nil => exact ⟨[], rfl, .nil⟩
            | @cons s r seeds rs h4 h5 ih =>
              obtain ⟨sel, hl, hf⟩ := ih
              obtain ⟨_, hd⟩ := single_dir h4
              rcases hd with ⟨g2, rfl⟩ | ⟨e, item, g2, g3, g4, g5⟩
              · exact ⟨none :: sel, by simp [hl],
                  .cons ⟨.inl ⟨rfl, g2, rfl⟩, by simp [dirAfter]⟩ hf⟩
              · refine ⟨some e :: sel, by simp [hl],
                  .cons ⟨.inr ⟨e, item, rfl, g2, g3⟩, ?_⟩ hf⟩
                intro q
                rw [g5 q]
                simp
          obtain ⟨sel, hl, hf⟩ := hsel
          have hbel : List.Forall₂ (fun s e => Below (path ++ [s]) e) seeds (rs.map (fun r => r.2.2)) := by
            rw [List.forall₂_map_right_iff]
            exact h1.imp (fun s r h => (single_dir h).1)
          refine ⟨?_, sel, ?_, hl, ?_⟩
          · intro ev hev
            simp only [List.mem_flatten] at hev
            obtain ⟨l, hl1, hl2⟩ := hev
            obtain ⟨i, hi, rfl⟩ := List.mem_iff_getElem.mp hl1
            have hi' : i < seeds.length := by rw [hbel.length_eq]; exact hi
            have := (List.forall₂_iff_get.mp hbel).2 i hi' hi
            exact (this.mono (List.prefix_append _ _)) ev hl2
          · rw [List.forall₂_map_right_iff]
            exact hf.imp (fun _ _ h => h.1)
          · intro q
            rw [mem_dir_flatten hn hbel (by simp)]
            simp only [List.not_mem_nil, false_or, List.mem_map, exists_exists_and_eq_and]
            have hz := List.forall₂_iff_get.mp hf
            constructor
            · rintro ⟨r, hr, hq⟩
              obtain ⟨i, hi, rfl⟩ := List.mem_iff_getElem.mp hr
              have hi' : i < (seeds.zip sel).length := by rw [hz.1]; exact hi
              obtain ⟨e, he, hqe⟩ := ((hz.2 i hi' hi).2 q).mp hq
              simp only [List.get_eq_getElem] at he hqe
              refine ⟨((seeds.zip sel)[i]).1, e, ?_, hqe⟩
              rw [← he]
              exact List.getElem_mem hi'
            · rintro ⟨s, e, hse, rfl⟩
              obtain ⟨i, hi', hie⟩ := List.mem_iff_getElem.mp hse
              have hi : i < rs.length := by rw [← hz.1]; exact hi'
              refine ⟨rs[i], List.getElem_mem hi, ((hz.2 i hi' hi).2 _).mpr ⟨e, ?_, ?_⟩⟩
              · simp only [List.get_eq_getElem, hie]
              · simp only [List.get_eq_getElem, hie]

end Verif
