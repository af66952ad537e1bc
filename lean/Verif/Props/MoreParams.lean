import Verif.Spec.MoreParams
import Verif.Props.GridRun
import Verif.Props.SeedsAlone

/-! # C166: a search with more parameter sets -/

namespace Verif

variable {π τ : Type}

theorem BestAt.unique {fields : List Str} {metric : Str} {rounds : List (Round τ)} {x y : Nat × τ × ScoreTable}
    (h : BestAt fields metric rounds x.1 x.2.1 x.2.2) (h' : BestAt fields metric rounds y.1 y.2.1 y.2.2) : x = y := by
  obtain ⟨e, t, s⟩ := x
  obtain ⟨e', t', s'⟩ := y
  obtain ⟨⟨r, h1, h2⟩, h3⟩ := h
  obtain ⟨⟨r', h1', h2'⟩, h3'⟩ := h'
  simp only at h1 h2 h3 h1' h2' h3'
  by_cases he : e = e'
  · subst he
    rw [h1] at h1'
    cases h1'
    rw [h2] at h2'
    cases h2'
    rfl
  · exfalso
    obtain ⟨o, ot, v, w, k1, k2, k3, k4, k5⟩ := h3 e' r' h1' (Ne.symm he)
    obtain ⟨o', ot', v', w', k1', k2', k3', k4', k5'⟩ := h3' e r h1 he
    rw [h2'] at k1
    rw [h2] at k1'
    cases k1
    cases k1'
    have e1 := k2.unique k3'
    have e2 := k3.unique k2'
    subst e1
    subst e2
    rcases Nat.lt_or_gt_of_ne he with hl | hl
    · exact absurd (k4' hl) (not_lt.2 (k5 hl))
    · exact absurd (k4 hl) (not_lt.2 (k5' hl))

theorem forall₂_unique {α β : Type} {R : α → β → Prop} (hR : ∀ a b b', R a b → R a b' → b = b') :
    ∀ {l : List α} {m m' : List β}, List.Forall₂ R l m → List.Forall₂ R l m' → m = m'
  | _, _, _, .nil, .nil => rfl
  | _, _, _, .cons h t, .cons h' t' => by rw [hR _ _ _ h h', forall₂_unique hR t t']

theorem Together.unique {a : RunArgs π τ} {ts : List ScoreTable} {t u : ScoreTable} (h : Together a ts t) (h' : Together a ts u) :
    t = u := by
  unfold Together at h h'
  cases hs : a.seeds with
  | one s =>
    rw [hs] at h h'
    simp only at h h'
    rw [h] at h'
    cases h'
    rfl
  | many ss =>
    rw [hs] at h h'
    simp only at h h'
    rw [h] at h'
    cases h'
    rfl

theorem SelectedFor.unique {a : RunArgs π τ} {train : Str → π → List (Round τ)} {p : π} {sel sel' : List (Nat × τ × ScoreTable)}
    (h : SelectedFor a train p sel) (h' : SelectedFor a train p sel') : sel = sel' := by
  unfold SelectedFor at h h'
  exact forall₂_unique (R := fun s x => BestAt a.cmpFields a.cmpMetric (train s p) x.1 x.2.1 x.2.2)
    (fun _ _ _ h h' => BestAt.unique h h') h h'

theorem DevScores.unique {a : RunArgs π τ} {train : Str → π → List (Round τ)} {p : π} {t u : ScoreTable}
    (h : DevScores a train p t) (h' : DevScores a train p u) : t = u := by
  obtain ⟨sel, h1, h2⟩ := h
  obtain ⟨sel', h1', h2'⟩ := h'
  cases h1.unique h1'
  exact h2.unique h2'

/-- A run whose candidates include those of another run is not worse. -/
theorem not_worse {π' : Type} (a : RunArgs π τ) (b : RunArgs π' τ) (hs : b.seeds = a.seeds) (hp : b.printFields = a.printFields)
    (hf : b.cmpFields = a.cmpFields) (hm : b.cmpMetric = a.cmpMetric) {train : Str → π → List (Round τ)}
    {train' : Str → π' → List (Round τ)} (ht : a.trainer = some train) (ht' : b.trainer = some train')
    (hne : a.printFields ≠ []) {disk disk' : List (List Str)} {fin : Final π} {fin' : Final π'}
    (h : (a.main disk).value = .ok fin) (h' : (b.main disk').value = .ok fin')
    (hin : ∀ p ∈ hyperList a.hyperparams, ∃ p' ∈ hyperList b.hyperparams, ∀ s ∈ a.seeds.list, train s p = train' s p') :
    NotWorse a fin.dev fin'.dev := by
  obtain ⟨i, p, sel, dev, h1, h2, h3, h4, h5, _⟩ := C103_report a disk ht hne h
  obtain ⟨j, q, sel', dev', k1, k2, k3, k4, k5, k6, _⟩ := C103_report b disk' ht' (by rw [hp]; exact hne) h'
  obtain ⟨p', hp', htr⟩ := hin p (List.mem_of_getElem? h1)
  obtain ⟨m, hm'⟩ := List.mem_iff_getElem?.1 hp'
  have hsel : SelectedFor b train' p' sel := by
    unfold SelectedFor at h4 ⊢
    rw [hs, hf, hm]
    have : ∀ (l : List Str) (sel : List (Nat × τ × ScoreTable)), (∀ s ∈ l, train s p = train' s p') →
        List.Forall₂ (fun s x => BestAt a.cmpFields a.cmpMetric (train s p) x.1 x.2.1 x.2.2) l sel →
        List.Forall₂ (fun s x => BestAt a.cmpFields a.cmpMetric (train' s p') x.1 x.2.1 x.2.2) l sel := by
      intro l sel hl hh
      induction hh with
      | nil => exact .nil
      | cons h _ ih =>
        refine .cons ?_ (ih fun s hs => hl s (List.mem_cons_of_mem _ hs))
        rw [← hl _ List.mem_cons_self]
        exact h
    exact this _ _ htr h4
  have htog : Together b (sel.map (fun x => x.2.2)) dev := by
    unfold Together at h5 ⊢
    rw [hs, hp]
    exact h5
  refine ⟨dev, dev', h3, k3, ?_⟩
  by_cases hmj : m = j
  · left
    subst hmj
    rw [hm'] at k1
    cases k1
    cases hsel.unique k4
    exact htog.unique k5
  · right
    obtain ⟨other, v, w, e1, e2, e3, e4, e5⟩ := k6 m p' hm' hmj
    cases e1.unique ⟨sel, hsel, htog⟩
    rw [hf, hm] at e2 e3
    refine ⟨v, w, e2, e3, ?_⟩
    rcases Nat.lt_or_gt_of_ne hmj with hl | hl
    · exact le_of_lt (e4 hl)
    · exact e5 hl

/-- C166: a run over more parameter sets, in any order, does not report a worse comparison score. -/
theorem C166_more (a : RunArgs π τ) {train : Str → π → List (Round τ)} (ht : a.trainer = some train) (hne : a.printFields ≠ [])
    {more : List π} (hin : ∀ p ∈ hyperList a.hyperparams, p ∈ more) {disk disk' : List (List Str)} {fin fin' : Final π}
    (h : (a.main disk).value = .ok fin) (h' : (({ a with hyperparams := .inr more } : RunArgs π τ).main disk').value = .ok fin') :
    NotWorse a fin.dev fin'.dev :=
  not_worse a { a with hyperparams := .inr more } rfl rfl rfl rfl ht ht hne h h' fun p hp => ⟨p, hin p hp, fun _ _ => rfl⟩

/-- C166: if the reported parameter set is better than all others, a run over some of the parameter sets, in any order and with
the reported one among them, reports the same parameters and the same scores on the dev set and on the test set. -/
theorem C166_same (a : RunArgs π τ) {train : Str → π → List (Round τ)} (ht : a.trainer = some train) (hne : a.printFields ≠ [])
    {fewer : List π} {disk disk' : List (List Str)} {fin fin' : Final π} {p : π}
    (h : (a.main disk).value = .ok fin) (hp : fin.params = some p) (hb : OnlyBest a train (hyperList a.hyperparams) p)
    (hin : ∀ q ∈ fewer, q ∈ hyperList a.hyperparams) (hpf : p ∈ fewer)
    (h' : (({ a with hyperparams := .inr fewer } : RunArgs π τ).main disk').value = .ok fin') : fin' = fin := by
  obtain ⟨i, p0, sel, dev, h1, h2, h3, h4, h5, h6, h7, h8, _⟩ := C103_report a disk ht hne h
  rw [hp] at h2
  cases h2
  obtain ⟨j, q, sel', dev', k1, k2, k3, k4, k5, k6, k7, k8, _⟩ :=
    C103_report { a with hyperparams := .inr fewer } disk' ht hne h'
  have hq : q = p := by
    by_contra hqp
    have hqf : q ∈ hyperList a.hyperparams := hin q (List.mem_of_getElem? k1)
    obtain ⟨m, hm⟩ := List.mem_iff_getElem?.1 hpf
    have hmj : m ≠ j := by
      rintro rfl
      simp only [hyperList] at k1
      rw [hm] at k1
      cases k1
      exact hqp rfl
    obtain ⟨other, v, w, e1, e2, e3, e4, e5⟩ := k6 m p hm hmj
    have hlt := hb q hqf hqp other dev' v w e1 ⟨sel', k4, k5⟩ e2 e3
    rcases Nat.lt_or_gt_of_ne hmj with hl | hl
    · exact absurd (e4 hl) (not_lt.2 (le_of_lt hlt))
    · exact absurd (e5 hl) (not_le.2 hlt)
  subst hq
  have hsel : sel' = sel := SelectedFor.unique (a := a) (train := train) k4 h4
  subst hsel
  have hdev : dev' = dev := Together.unique (a := a) k5 h5
  subst hdev
  have htest : fin'.test = fin.test := by
    cases htt : a.test with
    | none => rw [h7 htt, k7 htt]
    | some test =>
      obtain ⟨ts, t, m1, m2, m3⟩ := h8 test htt
      obtain ⟨ts', t', n1, n2, n3⟩ := k8 test htt
      have : ts' = ts := forall₂_unique (fun _ _ _ e e' => by rw [e] at e'; cases e'; rfl) n1 m1
      subst this
      have : t' = t := Together.unique (a := a) n2 m2
      rw [n3, m3, this]
  obtain ⟨fp, fd, ft⟩ := fin
  obtain ⟨fp', fd', ft'⟩ := fin'
  simp only at hp k2 h3 k3 htest
  rw [hp, k2, h3, k3, htest]

/-- C166: without a parameter set that is not the reported one, the same is reported, also if others are as good. -/
theorem C166_without (a : RunArgs π τ) {train : Str → π → List (Round τ)} (ht : a.trainer = some train) (hne : a.printFields ≠ [])
    {l r : List π} {q : π} (hh : a.hyperparams = .inr (l ++ q :: r)) {disk disk' : List (List Str)} {fin fin' : Final π}
    (h : (a.main disk).value = .ok fin) (hq : fin.params ≠ some q)
    (h' : (({ a with hyperparams := .inr (l ++ r) } : RunArgs π τ).main disk').value = .ok fin') : fin' = fin := by
  obtain ⟨i, p, sel, dev, h1, h2, h3, h4, h5, h6, h7, h8, _⟩ := C103_report a disk ht hne h
  obtain ⟨j, p', sel', dev', k1, k2, k3, k4, k5, k6, k7, k8, _⟩ :=
    C103_report { a with hyperparams := .inr (l ++ r) } disk' ht hne h'
  rw [hh] at h1 h6
  simp only [hyperList] at h1 h6 k1 k6
  have up : ∀ (m : Nat), (l ++ r)[m]? = (l ++ q :: r)[if m < l.length then m else m + 1]? := by
    intro m
    split
    · next hm => rw [List.getElem?_append_left hm, List.getElem?_append_left hm]
    · next hm =>
      rw [List.getElem?_append_right (by omega), List.getElem?_append_right (by omega),
        show m + 1 - l.length = (m - l.length) + 1 by omega, List.getElem?_cons_succ]
  have hil : i ≠ l.length := by
    rintro rfl
    rw [List.getElem?_append_right (le_refl _), Nat.sub_self, List.getElem?_cons_zero] at h1
    cases h1
    exact hq h2
  obtain ⟨c, hc⟩ : ∃ c, i = if c < l.length then c else c + 1 := by
    by_cases hl : i < l.length
    · exact ⟨i, by rw [if_pos hl]⟩
    · exact ⟨i - 1, by rw [if_neg (by omega)]; omega⟩
  have hcp : (l ++ r)[c]? = some p := by rw [up c, ← hc]; exact h1
  have hpp : p' = p := by
    by_cases hcj : c = j
    · subst hcj
      rw [hcp] at k1
      cases k1
      rfl
    · exfalso
      obtain ⟨other, v, w, e1, e2, e3, e4, e5⟩ := k6 c p hcp hcj
      have hji : (if j < l.length then j else j + 1) ≠ i := by
        rw [hc]
        split <;> split <;> omega
      obtain ⟨other', v', w', d1, d2, d3, d4, d5⟩ := h6 _ p' ((up j) ▸ k1) hji
      cases DevScores.unique (a := a) (train := train) e1 ⟨sel, h4, h5⟩
      cases DevScores.unique (a := a) (train := train) d1 ⟨sel', k4, k5⟩
      have x1 := e2.unique d3
      have x2 := e3.unique d2
      subst x1
      subst x2
      rcases Nat.lt_or_gt_of_ne hcj with hl | hl
      · have : i < (if j < l.length then j else j + 1) := by
          rw [hc]; split <;> split <;> omega
        exact absurd (e4 hl) (not_lt.2 (d5 this))
      · have : (if j < l.length then j else j + 1) < i := by
          rw [hc]; split <;> split <;> omega
        exact absurd (d4 this) (not_lt.2 (e5 hl))
  subst hpp
  have hsel : sel' = sel := SelectedFor.unique (a := a) (train := train) k4 h4
  subst hsel
  have hdev : dev' = dev := Together.unique (a := a) k5 h5
  subst hdev
  have htest : fin'.test = fin.test := by
    cases htt : a.test with
    | none => rw [h7 htt, k7 htt]
    | some test =>
      obtain ⟨ts, t, m1, m2, m3⟩ := h8 test htt
      obtain ⟨ts', t', n1, n2, n3⟩ := k8 test htt
      have : ts' = ts := forall₂_unique (fun _ _ _ e e' => by rw [e] at e'; cases e'; rfl) n1 m1
      subst this
      have : t' = t := Together.unique (a := a) n2 m2
      rw [n3, m3, this]
  obtain ⟨fp, fd, ft⟩ := fin
  obtain ⟨fp', fd', ft'⟩ := fin'
  simp only at h2 k2 h3 k3 htest
  rw [h2, k2, h3, k3, htest]

theorem product_subset {α : Type} {ls ls' : List (List α)} (h : List.Forall₂ (· ⊆ ·) ls ls') : product ls ⊆ product ls' := by
  intro bs hbs
  rw [mem_product] at hbs ⊢
  induction h generalizing bs with
  | nil => exact hbs
  | cons hl _ ih =>
    cases hbs with
    | cons h1 h2 => exact .cons (hl h1) (ih h2)

/-- The parameters of a successful grid search. -/
theorem gridMain_ok {n : Nat} (a : RunArgs Json τ) {grid : List (Str × List (List (Str × Json)))} {base : List (Str × Json)}
    (disk : List (List Str))
    (hbase : (Json.obj base).WF) (hgrid : ∀ e ∈ grid, ∀ b ∈ e.2, (Json.obj b).WF) (fbase : Fits n (.obj base))
    (fgrid : ∀ e ∈ grid, ∀ b ∈ e.2, Fits n (.obj b))
    (hm : ∀ bs ∈ product (grid.map Prod.snd), DictsMeetAll base bs) {fin : Final Json}
    (h : (gridMain n a grid base disk).value = .ok fin) :
    ∃ rs, List.Forall₂ (OverridesAll base) (product (grid.map Prod.snd)) rs ∧
      (({ a with deleteAfter := true, hyperparams := .inr (rs.map Json.obj) } : RunArgs Json τ).main disk).value = .ok fin := by
  unfold gridMain at h
  rcases (C81_check_partial grid).1 with hc | hc
  · rcases C54_grid_partial (n := n) hbase hgrid fbase fgrid hm with ⟨h1, h2⟩ | ⟨rs, h1, h2⟩
    · rw [hc, h1] at h; cases h
    · rw [hc, h1] at h
      exact ⟨rs, h2, by simpa [Tr.lift, Tr.bind] using h⟩
  · rw [hc] at h; cases h

/-- C166: a grid search with more values for its names does not report a worse comparison score.

Missing: grids that put a dictionary in place of another value, see `C54_refuted`. -/
theorem C166_grid_partial {n : Nat} (a : RunArgs Json τ) {grid more : List (Str × List (List (Str × Json)))}
    {base : List (Str × Json)} (hin : List.Forall₂ (fun e e' => e.2 ⊆ e'.2) grid more)
    (hbase : (Json.obj base).WF) (hgrid : ∀ e ∈ more, ∀ b ∈ e.2, (Json.obj b).WF) (fbase : Fits n (.obj base))
    (fgrid : ∀ e ∈ more, ∀ b ∈ e.2, Fits n (.obj b))
    (hm : ∀ bs ∈ product (more.map Prod.snd), DictsMeetAll base bs)
    {train : Str → Json → List (Round τ)} (ht : a.trainer = some train) (hne : a.printFields ≠ [])
    {disk disk' : List (List Str)} {fin fin' : Final Json}
    (h : (gridMain n a grid base disk).value = .ok fin) (h' : (gridMain n a more base disk').value = .ok fin') :
    NotWorse a fin.dev fin'.dev := by
  have hsub : product (grid.map Prod.snd) ⊆ product (more.map Prod.snd) := by
    apply product_subset
    clear h h' hgrid fgrid hm
    induction hin with
    | nil => exact .nil
    | cons h _ ih => exact .cons h ih
  have hmem : ∀ e ∈ grid, ∃ e' ∈ more, e.2 ⊆ e'.2 := by
    clear h h' hgrid fgrid hm hsub
    induction hin with
    | nil => simp
    | cons h _ ih =>
      intro e he
      rcases List.mem_cons.1 he with rfl | he
      · exact ⟨_, List.mem_cons_self, h⟩
      · obtain ⟨e', h1, h2⟩ := ih e he
        exact ⟨e', List.mem_cons_of_mem _ h1, h2⟩
  obtain ⟨rs, h1, h2⟩ := gridMain_ok (n := n) a disk hbase
    (fun e he b hb => by obtain ⟨e', h1, h2⟩ := hmem e he; exact hgrid e' h1 b (h2 hb)) fbase
    (fun e he b hb => by obtain ⟨e', h1, h2⟩ := hmem e he; exact fgrid e' h1 b (h2 hb))
    (fun bs hbs => hm bs (hsub hbs)) h
  obtain ⟨rs', k1, k2⟩ := gridMain_ok (n := n) a disk' hbase hgrid fbase fgrid hm h'
  refine not_worse { a with deleteAfter := true, hyperparams := .inr (rs.map Json.obj) }
    { a with deleteAfter := true, hyperparams := .inr (rs'.map Json.obj) } rfl rfl rfl rfl ht ht hne h2 k2 ?_
  intro p hp
  refine ⟨p, ?_, fun _ _ => rfl⟩
  simp only [hyperList, List.mem_map] at hp ⊢
  obtain ⟨c, hc, rfl⟩ := hp
  obtain ⟨i, hi⟩ := List.mem_iff_getElem?.1 hc
  obtain ⟨bs, hbs, hov⟩ := forall₂_getElem?_right h1 hi
  obtain ⟨j, hj⟩ := List.mem_iff_getElem?.1 (hsub (List.mem_of_getElem? hbs))
  obtain ⟨c', hc', hov'⟩ := forall₂_getElem?_left k1 hj
  refine ⟨c', List.mem_of_getElem? hc', ?_⟩
  have hwf : ∀ b ∈ bs, (Json.obj b).WF := by
    intro b hb
    have hbs' := hsub (List.mem_of_getElem? hbs)
    rw [mem_product] at hbs'
    obtain ⟨k, hk⟩ := List.mem_iff_getElem?.mp hb
    obtain ⟨l, hl, hbl⟩ := forall₂_getElem?_left hbs' hk
    rw [List.getElem?_map, Option.map_eq_some_iff] at hl
    obtain ⟨e, he, rfl⟩ := hl
    exact hgrid e (List.mem_of_getElem? he) b hbl
  rw [(C54_determined hbase hwf hov).1 c' hov']

/-- C166: the same when the trainings share a data set that is the same whenever it is iterated over. -/
theorem C166_partial (a : RunArgs π τ) (uses : π → Nat) (trainAt : Nat → Str → π → List (Round τ))
    (hc : ∀ n s p, trainAt n s p = trainAt 0 s p) (hne : a.printFields ≠ [])
    {more : List π} (hin : ∀ p ∈ hyperList a.hyperparams, p ∈ more) {disk disk' : List (List Str)} {fin fin' : Final (π × Nat)}
    (h : ((a.shared uses trainAt).main disk).value = .ok fin)
    (h' : ((({ a with hyperparams := .inr more } : RunArgs π τ).shared uses trainAt).main disk').value = .ok fin') :
    NotWorse a fin.dev fin'.dev := by
  refine not_worse (a.shared uses trainAt) (({ a with hyperparams := .inr more } : RunArgs π τ).shared uses trainAt)
    rfl rfl rfl rfl rfl rfl hne h h' ?_
  rintro ⟨p, i⟩ hp
  have hp' : p ∈ hyperList a.hyperparams := by
    unfold RunArgs.shared at hp
    cases hh : a.hyperparams with
    | inl q =>
      rw [hh] at hp
      simp only [hyperList, List.mem_singleton] at hp
      cases hp
      exact List.mem_singleton.2 rfl
    | inr l =>
      rw [hh] at hp
      exact List.mem_of_getElem? (List.mem_zipIdx_iff_getElem?.1 hp)
  obtain ⟨j, hj⟩ := List.mem_iff_getElem?.1 (hin p hp')
  refine ⟨(p, j), List.mem_zipIdx_iff_getElem?.2 hj, fun s _ => ?_⟩
  exact (hc _ s p).trans (hc _ s p).symm

namespace Demo

/-- An optimiser that learns with the parameters `true` only. -/
def learns (p : Bool) (m : Nat) (step : Features × Features) (lr : Rat) : Res (Nat × Rat) :=
  if p then firstWords m step lr else .ok (0, 0)

/-- One epoch on the shuffled letters with one of two parameter sets. -/
def shuffledWith (n : Nat) (p : Bool) : Res (TrainSt Nat × Option Err) :=
  neuralAt id float 0 (ptok 0) (fun _ => keepAll) letterProviders shuffledLetters
    (fun s => match s with
      | .trainable .. => 0
      | .lemmaDict _ => 1
      | _ => 2) 3
    (fun _ _ => .ok 0) (learns p) ⟨1, 0, 1, 1, 1⟩ ["m".toList]
    (fun seen => some fun _ m => testFile id 10 letterFile
      (mapM' (trainedTag id float 0 (ptok 0) seen letterProviders (if m.2 = 2 then letterNet else mixedNet)))) n

/-- One seed, the parameters that learn. -/
def oneParams : RunArgs Bool Nat where
  modelDir := ["m".toList]
  deleteAfter := true
  seeds := .one "1".toList
  printFields := ["UPOS".toList]
  cmpFields := ["UPOS".toList]
  cmpMetric := "f1".toList
  devResults := none
  trainer := none
  testResults := none
  test := none
  hyperparams := .inr [true]

theorem shuffled_one : ((oneParams.shared (fun _ => 4) (fun n _ p => roundsOf Prod.snd true (shuffledWith n p))).main
    []).value.toOption.map Final.dev = some (some (letterScores 1 1 1 1 1)) := by
  decide +kernel

theorem shuffled_second :
    ((({ oneParams with hyperparams := .inr [false, true] } : RunArgs Bool Nat).shared (fun _ => 4)
      (fun n _ p => roundsOf Prod.snd true (shuffledWith n p))).main []).value.toOption.map Final.dev = some (some mixedScores) := by
  decide +kernel

end Demo

/-- C166 does not hold for a shuffled data set: a parameter set that comes first takes away the order of the data with which
another one was better. -/
theorem C166_shuffled_refuted : ¬ ∀ (a : RunArgs Bool Nat) (uses : Bool → Nat) (trainAt : Nat → Str → Bool → List (Round Nat)),
    TrainedShuffled trainAt → a.printFields ≠ [] → ∀ (more : List Bool), (∀ p ∈ hyperList a.hyperparams, p ∈ more) →
    ∀ fin fin', ((a.shared uses trainAt).main []).value = .ok fin →
    ((({ a with hyperparams := .inr more } : RunArgs Bool Nat).shared uses trainAt).main []).value = .ok fin' →
    NotWorse a fin.dev fin'.dev := by
  intro hall
  have h1 := Demo.shuffled_one
  have h2 := Demo.shuffled_second
  generalize hv : ((Demo.oneParams.shared (fun _ => 4) (fun n _ p => roundsOf Prod.snd true (Demo.shuffledWith n p))).main
    []).value = v at h1
  generalize hw : ((({ Demo.oneParams with hyperparams := .inr [false, true] } : RunArgs Bool Nat).shared (fun _ => 4)
      (fun n _ p => roundsOf Prod.snd true (Demo.shuffledWith n p))).main []).value = w at h2
  cases v with
  | error e => cases h1
  | ok fin =>
    cases w with
    | error e => cases h2
    | ok fin' =>
      obtain ⟨dev, dev', e1, e2, e3⟩ := hall Demo.oneParams _ _
        ⟨_, _, _, _, _, Demo.shuffledLetters_eq, _, _, _, _, _, _, _, _, _, _, fun _ _ => _, fun _ p => Demo.learns p, fun _ => _,
          _, _, _, _, fun _ _ _ => rfl⟩ (by decide) [false, true] (by decide) fin fin' hv hw
      simp only [Except.toOption, Option.map_some, Option.some.injEq] at h1 h2
      rw [e1] at h1
      rw [e2] at h2
      cases h1
      cases h2
      rcases e3 with e3 | ⟨v, w, t1, t2, hle⟩
      · exact absurd e3 (by decide +kernel)
      · have x1 : TotalIs Demo.oneParams.cmpFields Demo.oneParams.cmpMetric (Demo.letterScores 1 1 1 1 1) 1 :=
          ⟨[1], .cons ⟨⟨1, 1, 1, some 1⟩, by decide +kernel, .f1 _⟩ .nil, by decide +kernel⟩
        have x2 : TotalIs Demo.oneParams.cmpFields Demo.oneParams.cmpMetric Demo.mixedScores (2 / 3) :=
          ⟨[2 / 3], .cons ⟨⟨2 / 3, 2 / 3, 2 / 3, some (2 / 3)⟩, by decide +kernel, .f1 _⟩ .nil, by decide +kernel⟩
        rw [t1.unique x1, t2.unique x2] at hle
        revert hle
        decide +kernel

/-- Two equal parameter sets and the first alone: the same result. -/
example : ∃ fin fin', ((Demo.run true false).main Demo.files).value = .ok fin ∧
    (({ Demo.run true false with hyperparams := .inr [false] } : RunArgs Bool Nat).main Demo.files).value = .ok fin' ∧
    fin' = fin := by
  have h1 : ((Demo.run true false).main Demo.files).value.isOk = true := by decide +kernel
  have h2 : (({ Demo.run true false with hyperparams := .inr [false] } : RunArgs Bool Nat).main Demo.files).value.isOk = true := by
    decide +kernel
  have h3 : ((Demo.run true false).main Demo.files).value.toOption.map Final.params = some (some false) := by decide +kernel
  generalize hv : ((Demo.run true false).main Demo.files).value = v at h1 h3
  generalize hw : (({ Demo.run true false with hyperparams := .inr [false] } : RunArgs Bool Nat).main Demo.files).value = w at h2
  cases v with
  | error e => cases h1
  | ok fin =>
    cases w with
    | error e => cases h2
    | ok fin' =>
      simp only [Except.toOption, Option.map_some, Option.some.injEq] at h3
      exact ⟨fin, fin', rfl, rfl, C166_without (Demo.run true false) rfl (by decide) (l := [false]) (r := []) (q := true) rfl hv
        (by rw [h3]; decide) hw⟩

namespace Demo

/-- One epoch per parameter set; the number is the score in percent. -/
def ranked (l : List Nat) : RunArgs Nat Nat where
  modelDir := ["m".toList]
  deleteAfter := true
  seeds := .one "1".toList
  printFields := ["UPOS".toList]
  cmpFields := ["UPOS".toList]
  cmpMetric := "f1".toList
  devResults := none
  trainer := some fun _ p => [⟨true, true, .ok (some (tab (p / 100)), p)⟩]
  testResults := none
  test := some fun t => (true, .ok (tab (t.getD 0 / 200)))
  hyperparams := .inr l

theorem ranked_dev (l : List Nat) (p : Nat) : DevScores (ranked l) (fun _ p => [⟨true, true, .ok (some (tab (p / 100)), p)⟩]) p
    (tab (p / 100)) := by
  refine ⟨[(0, p, tab (p / 100))], .cons ⟨⟨_, rfl, rfl⟩, ?_⟩ .nil, rfl⟩
  intro i r hi hne
  cases i with
  | zero => exact absurd rfl hne
  | succ i => simp at hi

theorem ranked_total (l : List Nat) (x : Rat) : TotalIs (ranked l).cmpFields (ranked l).cmpMetric (tab x) x := by
  refine ⟨[x], .cons ⟨⟨x, x, x, some x⟩, ?_, .f1 _⟩ .nil, by simp⟩
  rfl

theorem ranked_best (l : List Nat) (p : Nat) (h : ∀ q ∈ l, q ≤ p) :
    OnlyBest (ranked l) (fun _ p => [⟨true, true, .ok (some (tab (p / 100)), p)⟩]) l p := by
  intro q hq hne t u v w ht hu hv hw
  cases ht.unique (ranked_dev l p)
  cases hu.unique (ranked_dev l q)
  rw [hv.unique (ranked_total l _), hw.unique (ranked_total l _)]
  have : q < p := lt_of_le_of_ne (h q hq) hne
  have : (q : Rat) < p := by exact_mod_cast this
  linarith

end Demo

/-- The best of four parameter sets is also the best of two of them, in another order. -/
example : ∃ fin fin', ((Demo.ranked [60, 80, 70, 60]).main []).value = .ok fin ∧
    ((Demo.ranked [70, 80]).main []).value = .ok fin' ∧ fin.params = some 80 ∧ fin' = fin := by
  have h1 : ((Demo.ranked [60, 80, 70, 60]).main []).value.toOption.map Final.params = some (some 80) := by decide +kernel
  have h2 : ((Demo.ranked [70, 80]).main []).value.isOk = true := by decide +kernel
  generalize hv : ((Demo.ranked [60, 80, 70, 60]).main []).value = v at h1
  generalize hw : ((Demo.ranked [70, 80]).main []).value = w at h2
  cases v with
  | error e => cases h1
  | ok fin =>
    cases w with
    | error e => cases h2
    | ok fin' =>
      simp only [Except.toOption, Option.map_some, Option.some.injEq] at h1
      exact ⟨fin, fin', rfl, rfl, h1, C166_same (Demo.ranked [60, 80, 70, 60]) rfl (by decide) hv h1
        (Demo.ranked_best _ _ (by decide)) (fewer := [70, 80]) (by decide) (by decide) hw⟩

/-- The best of four parameter sets is better than the best of two others. -/
example : ∃ fin fin', ((Demo.ranked [70, 60]).main []).value = .ok fin ∧
    ((Demo.ranked [60, 80, 70, 60]).main []).value = .ok fin' ∧ NotWorse (Demo.ranked [70, 60]) fin.dev fin'.dev ∧
    fin.dev ≠ fin'.dev := by
  have h1 : ((Demo.ranked [70, 60]).main []).value.toOption.map Final.dev = some (some (Demo.tab (7 / 10))) := by decide +kernel
  have h2 : ((Demo.ranked [60, 80, 70, 60]).main []).value.toOption.map Final.dev = some (some (Demo.tab (8 / 10))) := by
    decide +kernel
  generalize hv : ((Demo.ranked [70, 60]).main []).value = v at h1
  generalize hw : ((Demo.ranked [60, 80, 70, 60]).main []).value = w at h2
  cases v with
  | error e => cases h1
  | ok fin =>
    cases w with
    | error e => cases h2
    | ok fin' =>
      simp only [Except.toOption, Option.map_some, Option.some.injEq] at h1 h2
      exact ⟨fin, fin', rfl, rfl, C166_more (Demo.ranked [70, 60]) rfl (by decide) (more := [60, 80, 70, 60]) (by decide) hv hw,
        by rw [h1, h2]; decide +kernel⟩

end Verif
