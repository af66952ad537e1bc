import Verif.Proofs.FeaturesDict

/-! # Merging builders -/

namespace Verif

/-! ### grouping -/

theorem flatMap_assocSet_some (k : Kind) (b : Builder) (g : List (Kind × List Builder))
    (old : List Builder) (h : assocGet k g = some old) :
    ((assocSet k (old ++ [b]) g).flatMap Prod.snd).Perm (b :: g.flatMap Prod.snd) := by
  induction g with
  | nil => simp [assocGet] at h
  | cons p g ih =>
    simp only [assocGet] at h
    by_cases hk : p.1 = k
    · rw [if_pos hk] at h
      injection h with h
      subst h
      simp only [assocSet, hk, if_true, List.flatMap_cons, List.append_assoc]
      exact List.perm_middle
    · rw [if_neg hk] at h
      simp only [assocSet, hk, if_false, List.flatMap_cons]
      exact ((ih h).append_left _).trans List.perm_middle

theorem flatMap_groupAdd (g : List (Kind × List Builder)) (b : Builder) :
    ((groupAdd g b).flatMap Prod.snd).Perm (b :: g.flatMap Prod.snd) := by
  unfold groupAdd
  cases h : assocGet b.kind g with
  | some old => simpa using flatMap_assocSet_some b.kind b g old h
  | none =>
    rw [assocGet_none] at h
    rw [assocSet_append_new h]
    simpa using List.perm_append_comm (l₁ := g.flatMap Prod.snd) (l₂ := [b])

structure Grouped (g : List (Kind × List Builder)) : Prop where
  nodup : (g.map Prod.fst).Nodup
  ne : ∀ p ∈ g, p.2 ≠ []
  kinds : ∀ p ∈ g, ∀ b ∈ p.2, b.kind = p.1

theorem grouped_add {g : List (Kind × List Builder)} (h : Grouped g) (b : Builder) :
    Grouped (groupAdd g b) := by
  have hold : ∀ x ∈ (assocGet b.kind g).getD [], x.kind = b.kind := by
    cases hg : assocGet b.kind g with
    | none => simp
    | some old => exact fun x hx => h.kinds _ (assocGet_mem hg) x hx
  have hmem : ∀ p ∈ groupAdd g b, p ∈ g ∨ p = (b.kind, (assocGet b.kind g).getD [] ++ [b]) := by
    unfold groupAdd
    generalize (assocGet b.kind g).getD [] ++ [b] = v
    intro p hp
    clear hold h
    induction g with
    | nil => simp only [assocSet, List.mem_singleton] at hp; exact Or.inr hp
    | cons q g ih =>
      simp only [assocSet] at hp
      by_cases hk : q.1 = b.kind
      · rw [if_pos hk] at hp
        rcases List.mem_cons.1 hp with rfl | hp
        · right; rw [hk]
        · left; exact List.mem_cons_of_mem _ hp
      · rw [if_neg hk] at hp
        rcases List.mem_cons.1 hp with rfl | hp
        · left; exact List.mem_cons_self
        · rcases ih hp with h | h
          · left; exact List.mem_cons_of_mem _ h
          · exact Or.inr h
  refine ⟨assocSet_nodup _ _ _ h.nodup, ?_, ?_⟩
  · intro p hp
    rcases hmem p hp with hp | rfl
    · exact h.ne p hp
    · simp
  · intro p hp
    rcases hmem p hp with hp | rfl
    · exact h.kinds p hp
    · intro x hx
      rcases List.mem_append.1 hx with hx | hx
      · exact hold x hx
      · rw [List.mem_singleton.1 hx]

theorem groupByKind_from (bs : List Builder) (g : List (Kind × List Builder)) (h : Grouped g) :
    Grouped (bs.foldl groupAdd g) ∧
    ((bs.foldl groupAdd g).flatMap Prod.snd).Perm (g.flatMap Prod.snd ++ bs) := by
  induction bs generalizing g with
  | nil => exact ⟨h, by simp⟩
  | cons b bs ih =>
    obtain ⟨h1, h2⟩ := ih (groupAdd g b) (grouped_add h b)
    refine ⟨h1, h2.trans ?_⟩
    refine ((flatMap_groupAdd g b).append_right bs).trans ?_
    exact List.perm_middle.symm

theorem groupByKind_grouped (bs : List Builder) : Grouped (groupByKind bs) :=
  (groupByKind_from bs [] ⟨by simp, by simp, by simp⟩).1

theorem groupByKind_perm (bs : List Builder) : ((groupByKind bs).flatMap Prod.snd).Perm bs := by
  have := (groupByKind_from bs [] ⟨by simp, by simp, by simp⟩).2
  simpa [groupByKind] using this

theorem groupByKind_isEmpty (bs : List Builder) : (groupByKind bs).isEmpty = true ↔ bs = [] := by
  rw [List.isEmpty_iff]
  constructor
  · intro h
    have := groupByKind_perm bs
    rw [h] at this
    exact List.Perm.nil_eq this |>.symm
  · rintro rfl; rfl

/-! ### sizes -/

theorem sizeL_append (a b : List Builder) :
    Builder.sizeL (a ++ b) = Builder.sizeL a + Builder.sizeL b := by
  induction a with
  | nil => simp [Builder.sizeL]
  | cons x a ih => simp [Builder.sizeL, ih]; omega

theorem sizeL_perm {a b : List Builder} (h : a.Perm b) : Builder.sizeL a = Builder.sizeL b := by
  induction h with
  | nil => rfl
  | cons x _ ih => simp [Builder.sizeL, ih]
  | swap x y l => simp [Builder.sizeL]; omega
  | trans _ _ h1 h2 => omega

theorem size_pos (b : Builder) : 0 < b.size := by cases b <;> simp [Builder.size]

theorem sizeL_inner (b : Builder) : Builder.sizeL b.inner < b.size := by
  cases b <;> simp [Builder.inner, Builder.sizeL, Builder.size]

theorem sizeL_flatMap_inner (vs : List Builder) (h : vs ≠ []) :
    Builder.sizeL (vs.flatMap Builder.inner) < Builder.sizeL vs := by
  induction vs with
  | nil => exact absurd rfl h
  | cons b vs ih =>
    rw [List.flatMap_cons, sizeL_append]
    have h1 := sizeL_inner b
    simp only [Builder.sizeL]
    by_cases hv : vs = []
    · subst hv; simp [Builder.sizeL]; omega
    · have := ih hv; omega

theorem sizeL_group (g : List (Kind × List Builder)) (p : Kind × List Builder) (hp : p ∈ g) :
    Builder.sizeL p.2 ≤ Builder.sizeL (g.flatMap Prod.snd) := by
  induction g with
  | nil => simp at hp
  | cons q g ih =>
    rw [List.flatMap_cons, sizeL_append]
    rcases List.mem_cons.1 hp with rfl | hp
    · omega
    · have := ih hp; omega

theorem mergeGroup_error {rec : List Builder → Res Builder} {m : Nat}
    (hrec : ∀ bs e, Builder.sizeL bs < m → rec bs = .error e → e = .value)
    (skip : Bool) (g : Kind × List Builder) (hne : g.2 ≠ []) (hm : Builder.sizeL g.2 ≤ m) (e : Err)
    (h : mergeGroup rec skip g = .error e) : e = .value := by
  obtain ⟨k, vs⟩ := g
  simp only at hne hm
  have hsz := sizeL_flatMap_inner vs hne
  simp only [mergeGroup] at h
  split at h
  · simp at h
  · split at h
    · simp at h
    · cases k <;> simp only [mergeSame, reduceCtorEq] at h
      all_goals
        cases hr : rec (vs.flatMap Builder.inner) with
        | ok b => simp [hr, Except.map] at h
        | error e' =>
          simp only [hr, Except.map, Except.error.injEq] at h
          subst h
          exact hrec _ _ (by omega) hr

theorem mapM'_error {α β : Type} {f : α → Res β} {l : List α} {e : Err}
    (h : mapM' f l = .error e) : ∃ a ∈ l, f a = .error e := by
  induction l with
  | nil => simp [mapM'] at h
  | cons a l ih =>
    simp only [mapM'] at h
    cases ha : f a with
    | error e' =>
      simp only [ha, Except.error.injEq] at h
      exact ⟨a, by simp, by rw [ha, h]⟩
    | ok b =>
      cases hl : mapM' f l with
      | error e' =>
        simp only [ha, hl, Except.error.injEq] at h
        subst h
        obtain ⟨x, hx, hfx⟩ := ih hl
        exact ⟨x, List.mem_cons_of_mem _ hx, hfx⟩
      | ok bs => simp [ha, hl] at h

theorem mergeFuel_error (n : Nat) (bs : List Builder) (e : Err) (hn : Builder.sizeL bs < n)
    (h : mergeFuel n bs = .error e) : e = .value := by
  induction n generalizing bs e with
  | zero => omega
  | succ n ih =>
    simp only [mergeFuel] at h
    split at h
    · injection h with h; exact h.symm
    · split at h
      · rename_i e' hp
        injection h with h
        subst h
        obtain ⟨g, hg, he⟩ := mapM'_error hp
        refine mergeGroup_error (m := n) (fun bs e h1 h2 => ih bs e h1 h2) _ g
          ((groupByKind_grouped bs).ne g hg) ?_ _ he
        have := sizeL_group _ g hg
        rw [sizeL_perm (groupByKind_perm bs)] at this
        omega
      · simp at h

/-! ### leaves -/

abbrev LeafList := List (List Wrapper × Option (Nat × Nat))

/-- The leaves that are not empty builders. -/
def properLeaves (l : LeafList) : LeafList := l.filter (fun x => x.2.isSome)

theorem leavesL_append (a b : List Builder) :
    Builder.leavesL (a ++ b) = Builder.leavesL a ++ Builder.leavesL b := by
  induction a with
  | nil => simp [Builder.leavesL]
  | cons x a ih => simp [Builder.leavesL, ih]

theorem leavesL_eq (l : List Builder) : Builder.leavesL l = l.flatMap Builder.leaves := by
  induction l with
  | nil => rfl
  | cons x l ih => simp [Builder.leavesL, ih]

theorem leavesL_perm {a b : List Builder} (h : a.Perm b) :
    (Builder.leavesL a).Perm (Builder.leavesL b) := by
  rw [leavesL_eq, leavesL_eq]
  exact h.flatMap_right _

theorem properLeaves_append (a b : LeafList) :
    properLeaves (a ++ b) = properLeaves a ++ properLeaves b := by simp [properLeaves]

theorem properLeaves_wrap (w : Wrapper) (l : LeafList) :
    properLeaves (l.map (fun x => (w :: x.1, x.2))) =
      (properLeaves l).map (fun x => (w :: x.1, x.2)) := by
  induction l with
  | nil => rfl
  | cons x l ih =>
    simp only [properLeaves, List.map_cons, List.filter_cons] at ih ⊢
    split <;> simp [ih]

theorem leavesL_padding (vs : List Builder) (h : ∀ b ∈ vs, b.kind = .padding) :
    Builder.leavesL vs =
      (Builder.leavesL (vs.flatMap Builder.inner)).map (fun x => (Wrapper.padding :: x.1, x.2)) := by
  induction vs with
  | nil => rfl
  | cons b vs ih =>
    have hb := h b List.mem_cons_self
    have := ih (fun x hx => h x (List.mem_cons_of_mem _ hx))
    cases b <;> simp [Builder.kind] at hb
    simp [Builder.leavesL, Builder.leaves, Builder.inner, this]

theorem leavesL_sparse (vs : List Builder) (h : ∀ b ∈ vs, b.kind = .sparse) :
    Builder.leavesL vs =
      (Builder.leavesL (vs.flatMap Builder.inner)).map (fun x => (Wrapper.sparse :: x.1, x.2)) := by
  induction vs with
  | nil => rfl
  | cons b vs ih =>
    have hb := h b List.mem_cons_self
    have := ih (fun x hx => h x (List.mem_cons_of_mem _ hx))
    cases b <;> simp [Builder.kind] at hb
    simp [Builder.leavesL, Builder.leaves, Builder.inner, this]

theorem leavesL_iter (vs : List Builder) (h : ∀ b ∈ vs, b.kind = .iter) :
    Builder.leavesL vs =
      (Builder.leavesL (vs.flatMap Builder.inner)).map (fun x => (Wrapper.iter :: x.1, x.2)) := by
  induction vs with
  | nil => rfl
  | cons b vs ih =>
    have hb := h b List.mem_cons_self
    have := ih (fun x hx => h x (List.mem_cons_of_mem _ hx))
    cases b <;> simp [Builder.kind] at hb
    simp [Builder.leavesL, Builder.leaves, Builder.inner, this]

theorem leavesL_comp (vs : List Builder) (h : ∀ b ∈ vs, b.kind = .comp) :
    Builder.leavesL vs = Builder.leavesL (vs.flatMap Builder.inner) := by
  induction vs with
  | nil => rfl
  | cons b vs ih =>
    have hb := h b List.mem_cons_self
    have := ih (fun x hx => h x (List.mem_cons_of_mem _ hx))
    cases b <;> simp [Builder.kind] at hb
    simp [Builder.leavesL, Builder.leaves, Builder.inner, this, leavesL_append]

theorem properLeaves_empty (vs : List Builder) (h : ∀ b ∈ vs, b.kind = .empty) :
    properLeaves (Builder.leavesL vs) = [] := by
  induction vs with
  | nil => rfl
  | cons b vs ih =>
    have hb := h b List.mem_cons_self
    have := ih (fun x hx => h x (List.mem_cons_of_mem _ hx))
    cases b <;> simp [Builder.kind] at hb
    simp only [Builder.leavesL, Builder.leaves, properLeaves_append, this]
    rfl

theorem mergeGroup_leaves {rec : List Builder → Res Builder}
    (hrec : ∀ bs b, rec bs = .ok b →
      (properLeaves b.leaves).Perm (properLeaves (Builder.leavesL bs)))
    (skip : Bool) (g : Kind × List Builder) (hk : ∀ b ∈ g.2, b.kind = g.1) (parts : List Builder)
    (h : mergeGroup rec skip g = .ok parts) :
    (properLeaves (Builder.leavesL parts)).Perm (properLeaves (Builder.leavesL g.2)) := by
  obtain ⟨k, vs⟩ := g
  simp only at hk
  simp only [mergeGroup] at h
  split at h
  · rename_i hs
    simp only [Bool.and_eq_true, decide_eq_true_eq] at hs
    injection h with h
    subst h
    rw [properLeaves_empty vs (fun b hb => by rw [hk b hb, hs.2])]
    simp [Builder.leavesL, properLeaves]
  · split at h
    · injection h with h
      subst h
      exact List.Perm.refl _
    · cases k with
      | padding =>
        simp only [mergeSame] at h
        cases hr : rec (vs.flatMap Builder.inner) with
        | error e => simp [hr, Except.map] at h
        | ok b =>
          simp only [hr, Except.map, Except.ok.injEq] at h
          subst h
          rw [leavesL_padding vs hk, properLeaves_wrap]
          simp only [Builder.leavesL, Builder.leaves, List.append_nil, properLeaves_wrap]
          exact (hrec _ _ hr).map _
      | sparse =>
        simp only [mergeSame] at h
        cases hr : rec (vs.flatMap Builder.inner) with
        | error e => simp [hr, Except.map] at h
        | ok b =>
          simp only [hr, Except.map, Except.ok.injEq] at h
          subst h
          rw [leavesL_sparse vs hk, properLeaves_wrap]
          simp only [Builder.leavesL, Builder.leaves, List.append_nil, properLeaves_wrap]
          exact (hrec _ _ hr).map _
      | iter =>
        simp only [mergeSame] at h
        cases hr : rec (vs.flatMap Builder.inner) with
        | error e => simp [hr, Except.map] at h
        | ok b =>
          simp only [hr, Except.map, Except.ok.injEq] at h
          subst h
          rw [leavesL_iter vs hk, properLeaves_wrap]
          simp only [Builder.leavesL, Builder.leaves, List.append_nil, properLeaves_wrap]
          exact (hrec _ _ hr).map _
      | comp =>
        simp only [mergeSame] at h
        cases hr : rec (vs.flatMap Builder.inner) with
        | error e => simp [hr, Except.map] at h
        | ok b =>
          simp only [hr, Except.map, Except.ok.injEq] at h
          subst h
          rw [leavesL_comp vs hk]
          simp only [Builder.leavesL, List.append_nil]
          exact hrec _ _ hr
      | empty =>
        simp only [mergeSame, Except.ok.injEq] at h
        subst h
        rw [properLeaves_empty vs hk,
          properLeaves_empty (vs.take 1) (fun b hb => hk b (List.mem_of_mem_take hb))]
      | leaf ty =>
        simp only [mergeSame, Except.ok.injEq] at h
        subst h
        exact List.Perm.refl _

theorem wrapResult_leaves (l : List Builder) : (wrapResult l).leaves = Builder.leavesL l := by
  match l with
  | [] => rfl
  | [b] => simp [wrapResult, Builder.leavesL]
  | a :: b :: l => rfl

theorem leavesL_groups {rec : List Builder → Res Builder} {skip : Bool}
    (hrec : ∀ bs b, rec bs = .ok b →
      (properLeaves b.leaves).Perm (properLeaves (Builder.leavesL bs)))
    (g : List (Kind × List Builder)) (hk : ∀ p ∈ g, ∀ b ∈ p.2, b.kind = p.1)
    (parts : List (List Builder)) (h : mapM' (mergeGroup rec skip) g = .ok parts) :
    (properLeaves (Builder.leavesL parts.flatten)).Perm
      (properLeaves (Builder.leavesL (g.flatMap Prod.snd))) := by
  induction g generalizing parts with
  | nil => simp only [mapM', Except.ok.injEq] at h; subst h; simp
  | cons p g ih =>
    simp only [mapM'] at h
    cases h1 : mergeGroup rec skip p with
    | error e => simp [h1] at h
    | ok a =>
      cases h2 : mapM' (mergeGroup rec skip) g with
      | error e => simp [h1, h2] at h
      | ok as =>
        simp only [h1, h2, Except.ok.injEq] at h
        subst h
        rw [List.flatten_cons, leavesL_append, properLeaves_append, List.flatMap_cons,
          leavesL_append, properLeaves_append]
        exact (mergeGroup_leaves hrec skip p (hk p List.mem_cons_self) a h1).append
          (ih (fun q hq => hk q (List.mem_cons_of_mem _ hq)) as h2)

theorem mergeFuel_leaves (n : Nat) (bs : List Builder) (b : Builder)
    (h : mergeFuel n bs = .ok b) :
    (properLeaves b.leaves).Perm (properLeaves (Builder.leavesL bs)) := by
  induction n generalizing bs b with
  | zero => simp [mergeFuel] at h
  | succ n ih =>
    simp only [mergeFuel] at h
    split at h
    · simp at h
    · split at h
      · simp at h
      · rename_i parts hp
        injection h with h
        subst h
        rw [wrapResult_leaves]
        refine (leavesL_groups ih _ (groupByKind_grouped bs).kinds parts hp).trans ?_
        exact (leavesL_perm (groupByKind_perm bs)).filter _

/-! ### merging succeeds -/

theorem wellFormedL_iff (l : List Builder) : Builder.WellFormedL l ↔ ∀ b ∈ l, b.WellFormed := by
  induction l with
  | nil => simp [Builder.WellFormedL]
  | cons x l ih => simp [Builder.WellFormedL, ih]

theorem wellFormed_inner {b : Builder} (h : b.WellFormed) : ∀ x ∈ b.inner, x.WellFormed := by
  cases b with
  | padding b => simpa [Builder.inner, Builder.WellFormed] using h
  | sparse b => simpa [Builder.inner, Builder.WellFormed] using h
  | iter b => simpa [Builder.inner, Builder.WellFormed] using h
  | comp l =>
    rw [Builder.WellFormed, wellFormedL_iff] at h
    exact h.2
  | empty => simp [Builder.inner]
  | leaf _ _ => simp [Builder.inner]

theorem inner_ne_nil {b : Builder} (h : b.WellFormed)
    (hk : b.kind = .padding ∨ b.kind = .sparse ∨ b.kind = .iter ∨ b.kind = .comp) :
    b.inner ≠ [] := by
  cases b <;> simp [Builder.kind] at hk <;> simp [Builder.inner]
  exact h.1

theorem flatMap_inner_ne {vs : List Builder} (hne : vs ≠ []) (hw : ∀ b ∈ vs, b.WellFormed)
    (hk : ∀ b ∈ vs, b.kind = .padding ∨ b.kind = .sparse ∨ b.kind = .iter ∨ b.kind = .comp) :
    vs.flatMap Builder.inner ≠ [] := by
  cases vs with
  | nil => exact absurd rfl hne
  | cons b vs =>
    rw [List.flatMap_cons]
    have := inner_ne_nil (hw b List.mem_cons_self) (hk b List.mem_cons_self)
    simp [this]

theorem mergeGroup_total {rec : List Builder → Res Builder} {m : Nat}
    (hrec : ∀ bs : List Builder, bs ≠ [] → (∀ b ∈ bs, b.WellFormed) → Builder.sizeL bs < m →
      ∃ b, rec bs = .ok b ∧ b.WellFormed)
    (skip : Bool) (g : Kind × List Builder) (hne : g.2 ≠ []) (hk : ∀ b ∈ g.2, b.kind = g.1)
    (hw : ∀ b ∈ g.2, b.WellFormed) (hm : Builder.sizeL g.2 ≤ m) :
    ∃ parts, mergeGroup rec skip g = .ok parts ∧ (∀ b ∈ parts, b.WellFormed) ∧
      (g.1 ≠ .empty ∨ skip = false → parts ≠ []) := by
  obtain ⟨k, vs⟩ := g
  simp only at hne hk hw hm ⊢
  simp only [mergeGroup]
  have hsz := sizeL_flatMap_inner vs hne
  have hwi : ∀ b ∈ vs.flatMap Builder.inner, b.WellFormed := by
    intro b hb
    obtain ⟨v, hv, hb⟩ := List.mem_flatMap.1 hb
    exact wellFormed_inner (hw v hv) b hb
  by_cases hs : (skip && decide (k = Kind.empty)) = true
  · refine ⟨[], by simp [hs], by simp, ?_⟩
    simp only [Bool.and_eq_true, decide_eq_true_eq] at hs
    rintro (h | h)
    · exact absurd hs.2 h
    · simp [h] at hs
  · rw [if_neg hs]
    by_cases h1 : vs.length = 1
    · exact ⟨vs, by simp [h1], hw, fun _ => hne⟩
    · rw [if_neg h1]
      cases k with
      | padding =>
        obtain ⟨b, hb, hwb⟩ := hrec _ (flatMap_inner_ne hne hw (fun b hb => Or.inl (hk b hb)))
          hwi (by omega)
        exact ⟨[.padding b], by simp [mergeSame, hb, Except.map],
          by simpa [Builder.WellFormed] using hwb, by simp⟩
      | sparse =>
        obtain ⟨b, hb, hwb⟩ := hrec _ (flatMap_inner_ne hne hw
          (fun b hb => Or.inr (Or.inl (hk b hb)))) hwi (by omega)
        exact ⟨[.sparse b], by simp [mergeSame, hb, Except.map],
          by simpa [Builder.WellFormed] using hwb, by simp⟩
      | iter =>
        obtain ⟨b, hb, hwb⟩ := hrec _ (flatMap_inner_ne hne hw
          (fun b hb => Or.inr (Or.inr (Or.inl (hk b hb))))) hwi (by omega)
        exact ⟨[.iter b], by simp [mergeSame, hb, Except.map],
          by simpa [Builder.WellFormed] using hwb, by simp⟩
      | comp =>
        obtain ⟨b, hb, hwb⟩ := hrec _ (flatMap_inner_ne hne hw
          (fun b hb => Or.inr (Or.inr (Or.inr (hk b hb))))) hwi (by omega)
        exact ⟨[b], by simp [mergeSame, hb, Except.map], by simpa using hwb, by simp⟩
      | empty =>
        refine ⟨vs.take 1, rfl, fun b hb => hw b (List.mem_of_mem_take hb), ?_⟩
        intro _
        simp [hne]
      | leaf ty => exact ⟨vs, rfl, hw, fun _ => hne⟩

theorem groups_total {rec : List Builder → Res Builder} {m : Nat}
    (hrec : ∀ bs : List Builder, bs ≠ [] → (∀ b ∈ bs, b.WellFormed) → Builder.sizeL bs < m →
      ∃ b, rec bs = .ok b ∧ b.WellFormed)
    (skip : Bool) (g : List (Kind × List Builder)) (hne : ∀ p ∈ g, p.2 ≠ [])
    (hk : ∀ p ∈ g, ∀ b ∈ p.2, b.kind = p.1)
    (hw : ∀ p ∈ g, ∀ b ∈ p.2, b.WellFormed) (hm : ∀ p ∈ g, Builder.sizeL p.2 ≤ m) :
    ∃ parts, mapM' (mergeGroup rec skip) g = .ok parts ∧
      (∀ b ∈ parts.flatten, b.WellFormed) ∧
      ((∃ p ∈ g, p.1 ≠ .empty ∨ skip = false) → parts.flatten ≠ []) := by
  induction g with
  | nil => exact ⟨[], rfl, by simp, by simp⟩
  | cons p g ih =>
    obtain ⟨a, ha, hwa, hna⟩ := mergeGroup_total hrec skip p (hne p List.mem_cons_self)
      (hk p List.mem_cons_self) (hw p List.mem_cons_self) (hm p List.mem_cons_self)
    obtain ⟨as, has, hwas, hnas⟩ := ih (fun q hq => hne q (List.mem_cons_of_mem _ hq))
      (fun q hq => hk q (List.mem_cons_of_mem _ hq)) (fun q hq => hw q (List.mem_cons_of_mem _ hq))
      (fun q hq => hm q (List.mem_cons_of_mem _ hq))
    refine ⟨a :: as, by simp [mapM', ha, has], ?_, ?_⟩
    · intro b hb
      rw [List.flatten_cons] at hb
      rcases List.mem_append.1 hb with hb | hb
      · exact hwa b hb
      · exact hwas b hb
    · rintro ⟨q, hq, h⟩
      rw [List.flatten_cons]
      intro he
      rw [List.append_eq_nil_iff] at he
      rcases List.mem_cons.1 hq with rfl | hq
      · exact hna h he.1
      · exact hnas ⟨q, hq, h⟩ he.2

/-- Some group is not skipped. -/
theorem exists_kept (bs : List Builder) (hne : bs ≠ []) :
    ∃ p ∈ groupByKind bs, p.1 ≠ .empty ∨ decide (1 < (groupByKind bs).length) = false := by
  have hg := groupByKind_grouped bs
  have hne' : groupByKind bs ≠ [] := by
    intro h
    exact hne ((groupByKind_isEmpty bs).1 (by simp [h]))
  match hb : groupByKind bs, hne', hg with
  | [p], _, _ => exact ⟨p, by simp, Or.inr (by simp)⟩
  | p :: q :: l, _, hg =>
    have hn := hg.nodup
    simp only [List.map_cons, List.nodup_cons, List.mem_cons, not_or] at hn
    by_cases hp : p.1 = .empty
    · refine ⟨q, by simp, Or.inl ?_⟩
      rw [← hp]
      exact fun h => hn.1.1 h.symm
    · exact ⟨p, by simp, Or.inl hp⟩

theorem wellFormed_wrapResult {l : List Builder} (hne : l ≠ []) (hw : ∀ b ∈ l, b.WellFormed) :
    (wrapResult l).WellFormed := by
  match l, hne, hw with
  | [b], _, hw => exact hw b (by simp)
  | a :: b :: l, _, hw =>
    simp only [wrapResult, Builder.WellFormed]
    exact ⟨by simp, (wellFormedL_iff _).2 hw⟩

theorem mergeFuel_total (n : Nat) (bs : List Builder) (hne : bs ≠ [])
    (hw : ∀ b ∈ bs, b.WellFormed) (hn : Builder.sizeL bs < n) :
    ∃ b, mergeFuel n bs = .ok b ∧ b.WellFormed := by
  induction n generalizing bs with
  | zero => omega
  | succ n ih =>
    have hg := groupByKind_grouped bs
    have hp := groupByKind_perm bs
    obtain ⟨parts, h1, h2, h3⟩ := groups_total (m := n) (rec := mergeFuel n)
      (fun bs h1 h2 h3 => ih bs h1 h2 h3) (decide (1 < (groupByKind bs).length)) (groupByKind bs)
      hg.ne hg.kinds
      (fun p hpm b hb => hw b (hp.mem_iff.1 (List.mem_flatMap.2 ⟨p, hpm, hb⟩)))
      (fun p hpm => by
        have := sizeL_group _ p hpm
        rw [sizeL_perm hp] at this
        omega)
    have hno : ¬ (groupByKind bs).isEmpty = true := fun h => hne ((groupByKind_isEmpty bs).1 h)
    refine ⟨wrapResult parts.flatten, ?_, ?_⟩
    · rw [mergeFuel, if_neg hno, h1]
    · exact wellFormed_wrapResult (h3 (exists_kept bs hne)) h2

end Verif
