import Verif.Proofs.UdAlign
import Mathlib.Algebra.Order.BigOperators.Group.List

/-!
# Proofs about evaluation: self-alignment, exact span matching, totals
-/

namespace Verif

/-! ### Aligning words with themselves -/

theorem wordBefore_get {ws : List UDWord} (h : ws.Pairwise WordBefore) {i j : Nat} {a b : UDWord} (hij : i < j)
    (ha : ws[i]? = some a) (hb : ws[j]? = some b) : WordBefore a b := by
  obtain ⟨hi, rfl⟩ := List.getElem?_eq_some_iff.1 ha
  obtain ⟨hj, rfl⟩ := List.getElem?_eq_some_iff.1 hb
  exact List.pairwise_iff_getElem.1 h i j hi hj hij

theorem PastEnd.anti {ws : List UDWord} {i e e' : Nat} (h : PastEnd ws i e') (he : e ≤ e') : PastEnd ws i e := by
  intro w hw
  obtain ⟨h1, h2⟩ := h w hw
  exact ⟨fun hm => by have := h1 hm; omega, fun hm => by have := h2 hm; omega⟩

theorem spanLoop_self {ws : List UDWord} (hne : NonEmptySpans ws) (ho : ws.Pairwise WordBefore) :
    ∀ (fuel a b e : Nat), b ≤ a → a ≤ ws.length → (∀ k, b ≤ k → k < a → ¬ PastEnd ws k e) →
    (ws.length - a) + (ws.length - b) < fuel → ∃ i, spanLoop ws ws fuel a b e = .ok (i, i) := by
  intro fuel
  induction fuel with
  | zero => intro a b e _ _ _ h; omega
  | succ fuel ih =>
    intro a b e hba ha hk hf
    rw [spanLoop]
    by_cases hc : (!beyondEnd ws a e || !beyondEnd ws b e) = true
    · rw [if_pos hc]
      have hc' : ¬ PastEnd ws a e ∨ ¬ PastEnd ws b e := by
        rw [← beyondEnd_iff, ← beyondEnd_iff]
        simpa using hc
      have hlt : a < ws.length ∨ b < ws.length := by
        rcases hc' with h | h
        · obtain ⟨w, hw, _⟩ := start_lt_of_not_past hne h
          exact .inl (List.getElem?_eq_some_iff.1 hw).1
        · obtain ⟨w, hw, _⟩ := start_lt_of_not_past hne h
          exact .inr (List.getElem?_eq_some_iff.1 hw).1
      rcases takeGold_spec hlt with ⟨g, h1, h2, h3⟩ | ⟨s, h1, h2, h3⟩
      · rw [h2]
        simp only [wordAt, h1]
        have hal := (List.getElem?_eq_some_iff.1 h1).1
        refine ih (a + 1) b _ (by omega) (by omega) ?_ (by omega)
        intro k hk1 hk2 hp
        have hp := hp.anti (extendEnd_ge g e)
        by_cases hka : k = a
        · subst hka
          by_cases hab : k = b
          · subst hab
            rcases hc' with h | h <;> exact h hp
          · have hbl : b < ws.length := by omega
            have hb' : ws[b]? = some ws[b] := by simp [hbl]
            have hnb := hk b (Nat.le_refl _) (by omega)
            have hst := h3 _ hb'
            rcases wordBefore_get ho (by omega : b < k) hb' h1 with ⟨m1, m2, m3⟩ | h
            · apply hnb
              intro w hw
              rw [hb'] at hw; injection hw with hw; subst hw
              refine ⟨fun _ => ?_, fun h => by rw [m1] at h; cases h⟩
              rw [m3]
              exact (hp g h1).1 m2
            · have := hne.get hb'
              omega
        · exact hk k hk1 (by omega) hp
      · rw [h2]
        simp only [wordAt, h1]
        have hab : a ≠ b := by
          rintro rfl
          have := h3 s h1
          omega
        refine ih a (b + 1) _ (by omega) ha ?_ (by omega)
        intro k hk1 hk2 hp
        exact hk k (by omega) hk2 (hp.anti (extendEnd_ge s e))
    · rw [if_neg hc]
      have hc' : PastEnd ws a e ∧ PastEnd ws b e := by
        rw [← beyondEnd_iff, ← beyondEnd_iff]
        simpa using hc
      by_cases hab : a = b
      · subst hab; exact ⟨a, rfl⟩
      · exact absurd hc'.2 (hk b (Nat.le_refl _) (by omega))

theorem findMultiwordSpan_self {ws : List UDWord} (hne : NonEmptySpans ws) (ho : ws.Pairwise WordBefore) {i : Nat}
    {w : UDWord} (hw : ws[i]? = some w) (hm : w.multi = true) :
    ∃ j, i < j ∧ j ≤ ws.length ∧ findMultiwordSpan ws ws i i = .ok (i, i, j, j) := by
  have hil := (List.getElem?_eq_some_iff.1 hw).1
  obtain ⟨gs, ss, gi', si', e, f1, f2, f3, f4, f5, f6, f7, f8, f9, f10, f11, _⟩ :=
    findMultiwordSpan_spec hne hne hw hw (by simp [hm])
  have e1 : gs = i := by simpa [hm] using f9
  have e2 : ss = i := by simpa [hm] using f11
  subst e1 e2
  have f1' := f1
  unfold findMultiwordSpan at f1'
  simp only [wordAt, hw, hm, Bool.not_true, Bool.false_and, Bool.false_eq_true, if_false, if_true] at f1'
  obtain ⟨j, hj⟩ := spanLoop_self hne ho (ws.length + ws.length + 1) ss ss w.span.stop (Nat.le_refl _) (by omega)
    (by intro k h1 h2; omega) (by omega)
  rw [hj] at f1'
  injection f1' with f1'
  simp only [Prod.mk.injEq, true_and] at f1'
  obtain ⟨rfl, rfl⟩ := f1'
  exact ⟨j, by omega, f4, f1⟩

theorem alignSpan_self (lower : Str → Str) (ws : List UDWord) {i j : Nat} (h : i < j) (hj : j ≤ ws.length) :
    alignSpan lower ws ws i i j j = .ok ((List.range' i (j - i)).map (fun k => (k, k))) := by
  have hlen : (forms lower ws i j).length = j - i := by
    rw [forms_eq, lowerForms_length _ _ hj]
  rw [alignSpan, if_pos ⟨h, h⟩]
  simp only
  rw [lcsWalk_self _ _ _ _ (by omega)]
  simp only [hlen, Nat.sub_zero]
  rw [List.map_map]
  congr 1
  rw [← List.range_eq_range', List.range'_eq_map_range, List.map_map]
  rfl

theorem alignLoop_self (lower : Str → Str) {ws : List UDWord} (hne : NonEmptySpans ws) (ho : ws.Pairwise WordBefore) :
    ∀ (fuel i : Nat), i ≤ ws.length → (ws.length - i) + (ws.length - i) < fuel →
    alignLoop lower ws ws fuel i i = .ok ((List.range' i (ws.length - i)).map (fun k => (k, k))) := by
  intro fuel
  induction fuel with
  | zero => intro i _ h; omega
  | succ fuel ih =>
    intro i hi hf
    rw [alignLoop]
    by_cases hlt : i < ws.length
    · rw [List.getElem?_eq_getElem hlt]
      simp only [Bool.or_self]
      by_cases hm : ws[i].multi = true
      · rw [if_pos hm]
        obtain ⟨j, h1, h2, h3⟩ := findMultiwordSpan_self hne ho (i := i) (by simp [hlt]) hm
        rw [h3]
        simp only
        rw [alignSpan_self lower ws h1 h2]
        simp only
        rw [ih j h2 (by omega)]
        simp only
        rw [← List.map_append]
        congr 2
        rw [show ws.length - i = (j - i) + (ws.length - j) from by omega, ← List.range'_append_1,
          show i + (j - i) = j from by omega]
      · rw [if_neg hm, if_pos ⟨trivial, trivial⟩, ih (i + 1) (by omega) (by omega)]
        simp only
        rw [show ws.length - i = (ws.length - (i + 1)) + 1 from by omega, List.range'_succ]
        rfl
    · rw [List.getElem?_eq_none (by omega), show ws.length - i = 0 from by omega]
      rfl

theorem alignWords_self (lower : Str → Str) {ws : List UDWord} (hne : NonEmptySpans ws) (ho : ws.Pairwise WordBefore) :
    alignWords lower ws ws = .ok ((List.range ws.length).map (fun k => (k, k))) := by
  rw [alignWords, alignLoop_self lower hne ho _ 0 (Nat.zero_le _) (by omega), List.range_eq_range']
  rfl

/-! ### Alignment without multi-word tokens -/

theorem start_lt_of_before {ws : List UDWord} (hne : NonEmptySpans ws) (ho : ws.Pairwise WordBefore)
    (hm : ∀ w ∈ ws, w.multi = false) {i j : Nat} {a b : UDWord} (hij : i < j)
    (ha : ws[i]? = some a) (hb : ws[j]? = some b) : a.span.start < b.span.start := by
  rcases wordBefore_get ho hij ha hb with ⟨h, _⟩ | h
  · rw [hm a (List.mem_of_getElem? ha)] at h; cases h
  · have := hne.get ha; omega

theorem alignLoop_complete (lower : Str → Str) {gold sys : List UDWord} (hg : NonEmptySpans gold) (hs : NonEmptySpans sys)
    (og : gold.Pairwise WordBefore) (os : sys.Pairwise WordBefore) (mg : ∀ w ∈ gold, w.multi = false)
    (ms : ∀ w ∈ sys, w.multi = false) :
    ∀ (fuel gi si : Nat), (gold.length - gi) + (sys.length - si) < fuel → ∀ pairs,
    alignLoop lower gold sys fuel gi si = .ok pairs → ∀ (i j : Nat) (g s : UDWord), gi ≤ i → si ≤ j →
    gold[i]? = some g → sys[j]? = some s → g.span = s.span → (i, j) ∈ pairs := by
  intro fuel
  induction fuel with
  | zero => intro gi si h; omega
  | succ fuel ih =>
    intro gi si hf pairs hp i j x y hi hj hx hy hxy
    rw [alignLoop] at hp
    have hil := (List.getElem?_eq_some_iff.1 hx).1
    have hjl := (List.getElem?_eq_some_iff.1 hy).1
    have h1 : gold[gi]? = some gold[gi] := by simp
    have h2 : sys[si]? = some sys[si] := by simp
    rw [h1, h2] at hp
    simp only at hp
    rw [if_neg (by simp [mg gold[gi] (List.getElem_mem _), ms sys[si] (List.getElem_mem _)])] at hp
    have key1 : i ≠ gi → gold[gi].span.start < x.span.start := fun h =>
      start_lt_of_before hg og mg (by omega) h1 hx
    have key2 : j ≠ si → sys[si].span.start < y.span.start := fun h =>
      start_lt_of_before hs os ms (by omega) h2 hy
    have ex : i = gi → x = gold[gi] := by rintro rfl; rw [h1] at hx; exact (Option.some.inj hx).symm
    have ey : j = si → y = sys[si] := by rintro rfl; rw [h2] at hy; exact (Option.some.inj hy).symm
    split at hp
    · rename_i hspan
      cases hr : alignLoop lower gold sys fuel (gi + 1) (si + 1) with
      | error e => rw [hr] at hp; cases hp
      | ok rest =>
        rw [hr] at hp
        injection hp with hp
        subst hp
        by_cases e1 : i = gi
        · by_cases e2 : j = si
          · subst e1 e2; exact List.mem_cons_self
          · have := key2 e2
            rw [ex e1] at hxy
            rw [← hxy] at this
            omega
        · by_cases e2 : j = si
          · have := key1 e1
            rw [ey e2] at hxy
            rw [hxy] at this
            omega
          · exact List.mem_cons_of_mem _ (ih _ _ (by omega) _ hr i j x y (by omega) (by omega) hx hy hxy)
    · rename_i hspan
      split at hp
      · rename_i hle
        refine ih _ _ (by omega) _ hp i j x y ?_ hj hx hy hxy
        by_contra hcon
        have e1 : i = gi := by omega
        rw [ex e1] at hxy
        by_cases e2 : j = si
        · rw [ey e2] at hxy
          exact hspan ⟨by rw [hxy], by rw [hxy]⟩
        · have := key2 e2
          rw [← hxy] at this
          omega
      · rename_i hle
        refine ih _ _ (by omega) _ hp i j x y hi ?_ hx hy hxy
        by_contra hcon
        have e2 : j = si := by omega
        rw [ey e2] at hxy
        by_cases e1 : i = gi
        · rw [ex e1] at hxy
          exact hspan ⟨by rw [hxy], by rw [hxy]⟩
        · have := key1 e1
          rw [hxy] at this
          omega

/-! ### Totals -/

/-- The words seen by the scores for a pair. -/
def MatchedFor (gold sys : List UDWord) (pairs : List (Nat × Nat)) (p : Nat × Nat) (a : AWord) : Prop :=
  gold[p.1]? = some a.gold ∧ sys[p.2]? = some a.sys ∧ a.goldPar = goldParent a.gold.parent ∧
    a.sysPar = sysParent pairs a.sys.parent

theorem fillParents_spec {gold sys : List UDWord} {pairs : List (Nat × Nat)}
    (h : ∀ q ∈ pairs, q.1 < gold.length ∧ q.2 < sys.length) :
    ∃ matched, fillParents gold sys pairs = .ok matched ∧ List.Forall₂ (MatchedFor gold sys pairs) pairs matched := by
  have key : ∀ ps : List (Nat × Nat), (∀ q ∈ ps, q.1 < gold.length ∧ q.2 < sys.length) →
      ∃ matched, mapM' (fun p : Nat × Nat =>
        match wordAt gold p.1, wordAt sys p.2 with
        | .ok g, .ok s =>
          .ok { gold := g, goldPar := goldParent g.parent, sys := s, sysPar := sysParent pairs s.parent }
        | _, _ => .error .index) ps = .ok matched ∧ List.Forall₂ (MatchedFor gold sys pairs) ps matched := by
    intro ps
    induction ps with
    | nil => intro _; exact ⟨[], rfl, .nil⟩
    | cons p ps ih =>
      intro h
      obtain ⟨m, h1, h2⟩ := ih (fun q hq => h q (by simp [hq]))
      obtain ⟨b1, b2⟩ := h p (by simp)
      refine ⟨⟨gold[p.1], goldParent gold[p.1].parent, sys[p.2], sysParent pairs sys[p.2].parent⟩ :: m, ?_,
        .cons ⟨by simp, by simp, rfl, rfl⟩ h2⟩
      simp only [mapM', wordAt, List.getElem?_eq_getElem b1, List.getElem?_eq_getElem b2]
      simp only [wordAt] at h1
      rw [h1]
  exact key pairs h

theorem sublist_of_positions {α : Type} {xs : List α} : ∀ {is : List Nat} {ws : List α} (a : Nat), (∀ i ∈ is, a ≤ i) →
    is.Pairwise (· < ·) → List.Forall₂ (fun i w => xs[i]? = some w) is ws → ws.Sublist (xs.drop a) := by
  intro is
  induction is with
  | nil => intro ws a _ _ h; cases h; simp
  | cons i is ih =>
    intro ws a ha hp h
    cases h with
    | cons h1 h2 =>
      rename_i w ws
      obtain ⟨p1, p2⟩ := List.pairwise_cons.1 hp
      have h3 := ih (i + 1) (fun j hj => p1 j hj) p2 h2
      obtain ⟨hlt, e⟩ := List.getElem?_eq_some_iff.1 h1
      have h4 : (w :: ws).Sublist (xs.drop i) := by
        rw [List.drop_eq_getElem_cons hlt, e]; exact h3.cons_cons w
      have hai := ha i (by simp)
      have h5 : (xs.drop i).Sublist (xs.drop a) := by
        rw [show i = a + (i - a) from by omega, ← List.drop_drop]
        exact List.drop_sublist _ _
      exact h4.trans h5

theorem matched_sublists {gold sys : List UDWord} {pairs ps : List (Nat × Nat)} {matched : List AWord}
    (hp : pairs.Pairwise (fun a b => a.1 < b.1 ∧ a.2 < b.2)) (h : List.Forall₂ (MatchedFor gold sys ps) pairs matched) :
    (matched.map AWord.gold).Sublist gold ∧ (matched.map AWord.sys).Sublist sys := by
  constructor
  · have := sublist_of_positions (xs := gold) (is := pairs.map Prod.fst) (ws := matched.map AWord.gold) 0 (by simp)
      (List.pairwise_map.2 (hp.imp (fun h => h.1))) (by
        rw [List.forall₂_map_left_iff, List.forall₂_map_right_iff]
        exact h.imp (fun _ _ h => h.1))
    simpa using this
  · have := sublist_of_positions (xs := sys) (is := pairs.map Prod.snd) (ws := matched.map AWord.sys) 0 (by simp)
      (List.pairwise_map.2 (hp.imp (fun h => h.2))) (by
        rw [List.forall₂_map_left_iff, List.forall₂_map_right_iff]
        exact h.imp (fun _ _ h => h.2.1))
    simpa using this

theorem totalWeight_nonneg {wt : UDWord → Rat} (h : ∀ w, 0 ≤ wt w) (l : List UDWord) : 0 ≤ totalWeight wt l := by
  apply List.sum_nonneg
  intro x hx
  obtain ⟨w, _, rfl⟩ := List.mem_map.1 hx
  exact h w

theorem totalWeight_sublist {wt : UDWord → Rat} (h : ∀ w, 0 ≤ wt w) {l m : List UDWord} (hs : l.Sublist m) :
    totalWeight wt l ≤ totalWeight wt m := by
  apply List.Sublist.sum_le_sum (hs.map wt)
  intro x hx
  obtain ⟨w, _, rfl⟩ := List.mem_map.1 hx
  exact h w

theorem totalWeight_one (l : List UDWord) : totalWeight unitWeight l = l.length := by
  induction l with
  | nil => rfl
  | cons w l ih =>
    unfold totalWeight at ih ⊢
    rw [List.map_cons, List.sum_cons, ih, unitWeight, List.length_cons]
    push_cast
    exact add_comm _ _

theorem unitWeight_nonneg (w : UDWord) : 0 ≤ unitWeight w := by unfold unitWeight; decide

theorem keyScore_bounded {κ : Type} [DecidableEq κ] {gold sys : List UDWord} {matched : List AWord}
    {key : UDWord → Par → κ} {wt : UDWord → Rat} (hwt : ∀ w, 0 ≤ wt w)
    (hkey : ∀ g p s q, key g p = key s q → wt g = wt s)
    (h1 : (matched.map AWord.gold).Sublist gold) (h2 : (matched.map AWord.sys).Sublist sys) :
    ScoreBounded (keyScore gold sys matched key wt) := by
  set m' := matched.filter (fun a => decide (key a.gold a.goldPar = key a.sys a.sysPar)) with hm'
  have hsub : m'.Sublist matched := List.filter_sublist
  have heq : totalWeight wt (m'.map AWord.gold) = totalWeight wt (m'.map AWord.sys) := by
    unfold totalWeight
    rw [List.map_map, List.map_map]
    congr 1
    apply List.map_congr_left
    intro a ha
    have := (List.mem_filter.1 ha).2
    exact hkey _ _ _ _ (of_decide_eq_true this)
  refine Score.new_bounded (totalWeight_nonneg hwt _) ?_ ?_ ?_
  · exact totalWeight_sublist hwt ((hsub.map _).trans h1)
  · rw [heq]; exact totalWeight_sublist hwt ((hsub.map _).trans h2)
  · intro x hx
    injection hx with hx
    rw [← hx]
    exact totalWeight_sublist hwt (hsub.map _)

theorem wordsScore_bounded {gold sys : List UDWord} {matched : List AWord}
    (h1 : (matched.map AWord.gold).Sublist gold) (h2 : (matched.map AWord.sys).Sublist sys) :
    ScoreBounded (wordsScore gold sys matched unitWeight) := by
  refine Score.new_bounded (totalWeight_nonneg unitWeight_nonneg _) (totalWeight_sublist unitWeight_nonneg h1) ?_
    (by simp)
  have : totalWeight unitWeight (matched.map AWord.gold) = totalWeight unitWeight (matched.map AWord.sys) := by
    rw [totalWeight_one, totalWeight_one, List.length_map, List.length_map]
  rw [this]
  exact totalWeight_sublist unitWeight_nonneg h2

theorem keyScore_le {κ κ' : Type} [DecidableEq κ] [DecidableEq κ'] {gold sys : List UDWord} {matched : List AWord}
    {key : UDWord → Par → κ} {key' : UDWord → Par → κ'} {wt : UDWord → Rat} (hwt : ∀ w, 0 ≤ wt w)
    (hk : ∀ g p s q, key g p = key s q → key' g p = key' s q) :
    ScoreLe (keyScore gold sys matched key wt) (keyScore gold sys matched key' wt) := by
  refine Score.new_le (totalWeight_nonneg hwt _) (totalWeight_nonneg hwt _) (totalWeight_sublist hwt ?_)
  apply List.Sublist.map
  apply List.monotone_filter_right
  intro a ha
  exact decide_eq_true (hk _ _ _ _ (of_decide_eq_true ha))

theorem keyScore_le_words {κ : Type} [DecidableEq κ] {gold sys : List UDWord} {matched : List AWord}
    {key : UDWord → Par → κ} {wt : UDWord → Rat} (hwt : ∀ w, 0 ≤ wt w) :
    ScoreLe (keyScore gold sys matched key wt) (wordsScore gold sys matched wt) := by
  refine Score.new_le (totalWeight_nonneg hwt _) (totalWeight_nonneg hwt _) (totalWeight_sublist hwt ?_)
  exact List.filter_sublist.map _

theorem isScore_new (g s c : Rat) (a : Option Rat) : IsScore (Score.new g s c a) g s c a := by
  refine ⟨?_, ?_, ?_, ?_⟩
  · by_cases h : s = 0 <;> simp [Score.new, ratio, h]
  · by_cases h : g = 0 <;> simp [Score.new, ratio, h]
  · by_cases h : g + s = 0 <;> simp [Score.new, ratio, h, add_comm s g]
  · cases a with
    | none => rfl
    | some x => by_cases h : x = 0 <;> simp [Score.new, ratio, h]

theorem goldWeight_eq {gold sys : List UDWord} {pairs ps : List (Nat × Nat)} {matched : List AWord} (wt : UDWord → Rat)
    (h : List.Forall₂ (MatchedFor gold sys ps) pairs matched) :
    totalWeight wt (matched.map AWord.gold) = goldWeight wt gold pairs := by
  induction h with
  | nil => rfl
  | cons h1 _ ih =>
    unfold totalWeight goldWeight at ih ⊢
    simp only [List.map_cons, List.sum_cons, ih, h1.1, Option.map_some, Option.getD_some]

theorem goldWeight_filter {κ : Type} [DecidableEq κ] {gold sys : List UDWord} {pairs ps : List (Nat × Nat)}
    {matched : List AWord} (wt : UDWord → Rat) {key : UDWord → Par → κ} {P : UDWord → UDWord → Prop}
    (hP : ∀ g ∈ gold, ∀ s ∈ sys, key g (goldParent g.parent) = key s (sysParent ps s.parent) ↔ P g s)
    (h : List.Forall₂ (MatchedFor gold sys ps) pairs matched) :
    totalWeight wt ((matched.filter (fun a => decide (key a.gold a.goldPar = key a.sys a.sysPar))).map AWord.gold) =
      goldWeight wt gold (pairsSat gold sys P pairs) := by
  induction h with
  | nil => rfl
  | cons h1 _ ih =>
    rename_i p a _ _ _
    obtain ⟨q1, q2, q3, q4⟩ := h1
    have hiff : (key a.gold a.goldPar = key a.sys a.sysPar) ↔ PairSat gold sys P p := by
      rw [q3, q4, hP a.gold (List.mem_of_getElem? q1) a.sys (List.mem_of_getElem? q2)]
      constructor
      · intro h; exact ⟨_, _, q1, q2, h⟩
      · rintro ⟨g, s, e1, e2, h⟩
        rw [q1] at e1; rw [q2] at e2
        injection e1 with e1; injection e2 with e2
        subst e1 e2; exact h
    by_cases hk : key a.gold a.goldPar = key a.sys a.sysPar
    · have hp := hiff.1 hk
      rw [List.filter_cons_of_pos (by simpa using hk), pairsSat, List.filter_cons_of_pos (by simpa using hp)]
      unfold pairsSat at ih
      unfold totalWeight goldWeight at ih ⊢
      simp only [List.map_cons, List.sum_cons, ih, q1, Option.map_some, Option.getD_some]
    · have hp : ¬ PairSat gold sys P p := fun h => hk (hiff.2 h)
      rw [List.filter_cons_of_neg (by simpa using hk), pairsSat, List.filter_cons_of_neg (by simpa using hp)]
      exact ih

theorem sysParent_word {pairs : List (Nat × Nat)} (hp : pairs.Pairwise (fun a b => a.1 < b.1 ∧ a.2 < b.2)) (a b : Nat) :
    sysParent pairs (.word b) = .word a ↔ (a, b) ∈ pairs := by
  have hn : ((pairs.map Prod.swap).map Prod.fst).Nodup := by
    rw [List.map_map]
    exact List.Nodup.of_map id (by
      rw [List.map_id]
      exact (List.pairwise_map.2 (hp.imp (fun h => by show _ ≠ _; simp only [Function.comp, Prod.fst_swap]; omega))))
  have he := Dict.ofList_entries _ hn
  unfold sysParent
  simp only
  constructor
  · intro h
    split at h
    · rename_i g hg
      injection h with h
      subst h
      rw [Dict.get?_mem, he] at hg
      obtain ⟨q, hq, e⟩ := List.mem_map.1 hg
      rw [← Prod.swap_swap q, e] at hq
      exact hq
    · cases h
  · intro h
    have : (Dict.ofList (pairs.map Prod.swap)).get? b = some a := by
      rw [Dict.get?_mem, he]
      exact List.mem_map.2 ⟨(a, b), h, rfl⟩
    rw [this]

theorem parents_agree {pairs : List (Nat × Nat)} (hp : pairs.Pairwise (fun a b => a.1 < b.1 ∧ a.2 < b.2)) {g s : UDWord}
    (hg : g.parent = .none ∨ ∃ p, g.parent = .word p) (hs : s.parent = .none ∨ ∃ p, s.parent = .word p) :
    goldParent g.parent = sysParent pairs s.parent ↔ HeadsAgree pairs g s := by
  unfold HeadsAgree
  rcases hg with hg | ⟨a, hg⟩ <;> rcases hs with hs | ⟨b, hs⟩ <;> rw [hg, hs]
  · simp [goldParent, sysParent]
  · simp only [goldParent, sysParent]
    constructor
    · intro h; split at h <;> cases h
    · simp
  · simp [goldParent, sysParent]
  · have := sysParent_word hp a b
    constructor
    · intro h
      exact .inr ⟨a, b, rfl, rfl, this.1 h.symm⟩
    · rintro (⟨h, _⟩ | ⟨a', b', h1, h2, h3⟩)
      · cases h
      · injection h1 with h1; injection h2 with h2; subst h1 h2
        exact (this.2 h3).symm

end Verif
