import Verif.Spec.Interpreters
import Verif.Proofs.Providers5
import Verif.Props.Pipeline
import Verif.Props.Extractors
import Verif.Props.PosLabels
import Verif.Props.Features

/-! # Proofs about assembled interpreters: the shape of merged label builders -/

namespace Verif

/-! ### Merging label builders -/

/-- A builder for labels of words. -/
def wordLeaf (p : Nat × Nat) : Builder := .padding (.iter (.iter (.leaf p.1 p.2)))

/-- The merged builder for labels of words. -/
inductive LabelShape (L : List (Nat × Nat)) : Builder → Prop
  | none : L = [] → LabelShape L .empty
  | one (p : Nat × Nat) : L = [p] → LabelShape L (wordLeaf p)
  | many (L' : List (Nat × Nat)) : 2 ≤ L'.length → L'.Perm L →
      LabelShape L (.padding (.iter (.iter (.comp (L'.map (fun p => Builder.leaf p.1 p.2))))))

theorem groupByKind_const {bs : List Builder} {k : Kind} (hne : bs ≠ []) (h : ∀ b ∈ bs, b.kind = k) :
    groupByKind bs = [(k, bs)] := by
  have key : ∀ (bs pre : List Builder), (∀ b ∈ bs, b.kind = k) →
      bs.foldl groupAdd [(k, pre)] = [(k, pre ++ bs)] := by
    intro bs
    induction bs with
    | nil => simp
    | cons b bs ih =>
      intro pre h
      have hb := h b (by simp)
      have : groupAdd [(k, pre)] b = [(k, pre ++ [b])] := by
        simp [groupAdd, hb, assocGet, assocSet]
      rw [List.foldl_cons, this, ih _ (fun b hb => h b (by simp [hb])), List.append_assoc]
      rfl
  obtain ⟨b, bs, rfl⟩ := List.exists_cons_of_ne_nil hne
  unfold groupByKind
  have hb := h b (by simp)
  have : groupAdd [] b = [(k, [b])] := by simp [groupAdd, hb, assocGet, assocSet]
  rw [List.foldl_cons, this, key bs [b] (fun b hb => h b (by simp [hb]))]
  rfl

theorem mergeFuel_leafs {n : Nat} {L : List (Nat × Nat)} (hL : 2 ≤ L.length) {b : Builder}
    (h : mergeFuel n (L.map (fun p => Builder.leaf p.1 p.2)) = .ok b) :
    ∃ L' : List (Nat × Nat), L'.Perm L ∧ b = .comp (L'.map (fun p => Builder.leaf p.1 p.2)) := by
  cases n with
  | zero => simp [mergeFuel] at h
  | succ n =>
    rw [mergeFuel] at h
    have hg := groupByKind_grouped (L.map (fun p => Builder.leaf p.1 p.2))
    have hp := groupByKind_perm (L.map (fun p => Builder.leaf p.1 p.2))
    generalize groupByKind (L.map (fun p => Builder.leaf p.1 p.2)) = g at h hg hp
    have hk : ∀ q ∈ g, ∃ ty, q.1 = .leaf ty := by
      intro q hq
      obtain ⟨x, xs, hx⟩ := List.exists_cons_of_ne_nil (hg.ne q hq)
      have h1 := hg.kinds q hq x (by rw [hx]; simp)
      have h2 : x ∈ L.map (fun p => Builder.leaf p.1 p.2) :=
        hp.subset (List.mem_flatMap.2 ⟨q, hq, by rw [hx]; simp⟩)
      obtain ⟨p, _, rfl⟩ := List.mem_map.1 h2
      exact ⟨p.1, h1.symm⟩
    have hm : ∀ s, mapM' (mergeGroup (mergeFuel n) s) g = .ok (g.map Prod.snd) := by
      intro s
      rw [mapM'_ok_iff, List.forall₂_map_right_iff]
      refine List.forall₂_same.2 (fun q hq => ?_)
      obtain ⟨ty, ht⟩ := hk q hq
      unfold mergeGroup
      rw [ht, if_neg (by simp)]
      split
      · rfl
      · rfl
    split at h
    · cases h
    · rw [hm] at h
      simp only [Except.ok.injEq] at h
      rw [← List.flatMap_def] at h
      obtain ⟨L', hL', hperm⟩ : ∃ L' : List (Nat × Nat), g.flatMap Prod.snd = L'.map (fun p => Builder.leaf p.1 p.2) ∧
          L'.Perm L := by
        have : ∀ (xs : List Builder) (L : List (Nat × Nat)), xs.Perm (L.map (fun p => Builder.leaf p.1 p.2)) →
            ∃ L' : List (Nat × Nat), xs = L'.map (fun p => Builder.leaf p.1 p.2) ∧ L'.Perm L := by
          intro xs L hx
          refine ⟨xs.filterMap (fun b => match b with | .leaf a b => some (a, b) | _ => none), ?_, ?_⟩
          · rw [List.map_filterMap]
            have hall : ∀ x ∈ xs, ∃ p : Nat × Nat, x = .leaf p.1 p.2 := by
              intro x hx'
              obtain ⟨p, _, rfl⟩ := List.mem_map.1 (hx.subset hx')
              exact ⟨p, rfl⟩
            clear hx
            induction xs with
            | nil => rfl
            | cons x xs ih =>
              obtain ⟨p, rfl⟩ := hall x (by simp)
              have := ih (fun y hy => hall y (by simp [hy]))
              simp only [List.filterMap_cons, Option.map_some]
              rw [← this]
          · have := hx.filterMap (fun b => match b with | .leaf a b => some (a, b) | _ => none)
            simpa [List.filterMap_map, Function.comp_def] using this
        exact this _ _ hp
      refine ⟨L', hperm, ?_⟩
      rw [hL'] at h
      have hlen : 2 ≤ (L'.map (fun p => Builder.leaf p.1 p.2)).length := by
        rw [List.length_map, hperm.length_eq]; exact hL
      subst h
      revert hlen
      cases L' with
      | nil => simp
      | cons a L' =>
        cases L' with
        | nil => simp
        | cons b L' => intro _; rfl

theorem wrapResult_one (b : Builder) : wrapResult [b] = b := rfl

theorem mergeFuel_same {n : Nat} {bs : List Builder} {k : Kind} (h2 : 2 ≤ bs.length)
    (hk : ∀ b ∈ bs, b.kind = k) (hne : k ≠ .empty) {b : Builder} (h : mergeFuel (n + 1) bs = .ok b) :
    ∃ r, mergeSame (mergeFuel n) k bs = .ok r ∧ b = wrapResult r := by
  have hbs : bs ≠ [] := by rintro rfl; simp at h2
  rw [mergeFuel, groupByKind_const hbs hk] at h
  simp only [List.isEmpty_cons, Bool.false_eq_true, if_false, List.length_cons, List.length_nil, mapM'] at h
  have : mergeGroup (mergeFuel n) (decide (1 < 0 + 1)) (k, bs) = mergeSame (mergeFuel n) k bs := by
    unfold mergeGroup
    rw [if_neg (by simp), if_neg (by simp only; omega)]
  rw [this] at h
  cases hm : mergeSame (mergeFuel n) k bs with
  | error e => rw [hm] at h; cases h
  | ok r =>
    rw [hm] at h
    simp only [Except.ok.injEq, List.flatten_cons, List.flatten_nil, List.append_nil] at h
    exact ⟨r, rfl, h.symm⟩

theorem mergeFuel_iter {n : Nat} {xs : List Builder} (h2 : 2 ≤ xs.length) {b : Builder}
    (h : mergeFuel n (xs.map .iter) = .ok b) : ∃ m y, mergeFuel m xs = .ok y ∧ b = .iter y := by
  cases n with
  | zero => simp [mergeFuel] at h
  | succ n =>
    obtain ⟨r, hr, rfl⟩ := mergeFuel_same (k := .iter) (by simpa using h2) (by simp [Builder.kind]) (by simp) h
    simp only [mergeSame] at hr
    rw [show (xs.map Builder.iter).flatMap Builder.inner = xs by
      induction xs with
      | nil => rfl
      | cons x xs ih => simp [List.flatMap_map, Builder.inner]] at hr
    cases hy : mergeFuel n xs with
    | error e => rw [hy] at hr; cases hr
    | ok y =>
      rw [hy] at hr
      injection hr with hr
      subst hr
      exact ⟨n, y, hy, rfl⟩

theorem mergeSame_words {n : Nat} {L : List (Nat × Nat)} (hL : 2 ≤ L.length) {r : List Builder}
    (h : mergeSame (mergeFuel n) .padding (L.map wordLeaf) = .ok r) :
    ∃ L' : List (Nat × Nat), L'.Perm L ∧
      r = [.padding (.iter (.iter (.comp (L'.map (fun p => Builder.leaf p.1 p.2)))))] := by
  simp only [mergeSame] at h
  rw [show (L.map wordLeaf).flatMap Builder.inner =
      (L.map (fun p => Builder.iter (.leaf p.1 p.2))).map .iter by
    clear h hL
    induction L with
    | nil => rfl
    | cons x xs ih => simpa [wordLeaf, Builder.inner] using ih] at h
  cases hy : mergeFuel n ((L.map (fun p => Builder.iter (.leaf p.1 p.2))).map .iter) with
  | error e => rw [hy] at h; cases h
  | ok y =>
    rw [hy] at h
    injection h with h
    subst h
    obtain ⟨m, z, hz, rfl⟩ := mergeFuel_iter (by simpa using hL) hy
    rw [show L.map (fun p => Builder.iter (.leaf p.1 p.2)) =
      (L.map (fun p => Builder.leaf p.1 p.2)).map .iter by simp [Function.comp_def]] at hz
    obtain ⟨m', w, hw, rfl⟩ := mergeFuel_iter (by simpa using hL) hz
    obtain ⟨L', h1, rfl⟩ := mergeFuel_leafs hL hw
    exact ⟨L', h1, rfl⟩

theorem perm_map_exists {α β : Type} {f : α → β} {xs ys : List β} (h : xs.Perm ys) :
    ∀ L : List α, ys = L.map f → ∃ L' : List α, xs = L'.map f ∧ L'.Perm L := by
  induction h with
  | nil => intro L hL; exact ⟨[], rfl, by simp at hL; simp [hL]⟩
  | cons x _ ih =>
    intro L hL
    cases L with
    | nil => cases hL
    | cons a L =>
      simp only [List.map_cons, List.cons.injEq] at hL
      obtain ⟨L', h1, h2⟩ := ih L hL.2
      exact ⟨a :: L', by simp [hL.1, h1], h2.cons a⟩
  | swap x y l =>
    intro L hL
    match L, hL with
    | a :: b :: L, hL =>
      simp only [List.map_cons, List.cons.injEq] at hL
      exact ⟨b :: a :: L, by simp [hL.1, hL.2.1, hL.2.2], List.Perm.swap a b L⟩
  | trans _ _ ih1 ih2 =>
    intro L hL
    obtain ⟨L1, h1, h2⟩ := ih2 L hL
    obtain ⟨L2, h3, h4⟩ := ih1 L1 h1
    exact ⟨L2, h3, h4.trans h2⟩

theorem LabelShape.perm {L L' : List (Nat × Nat)} {b : Builder} (h : LabelShape L b) (hp : L.Perm L') :
    LabelShape L' b := by
  cases h with
  | none h => subst h; exact .none (List.nil_perm.1 hp)
  | one p h => subst h; exact .one p (List.singleton_perm.1 hp).symm
  | many L1 h1 h2 => exact .many L1 h1 (h2.trans hp)

/-- The group of the labels. -/
theorem mergeGroup_words {n : Nat} {s : Bool} {L : List (Nat × Nat)} (hL : L ≠ []) {r : List Builder}
    (h : mergeGroup (mergeFuel n) s (.padding, L.map wordLeaf) = .ok r) : ∃ b, r = [b] ∧ LabelShape L b := by
  unfold mergeGroup at h
  rw [if_neg (by simp)] at h
  match L, hL, h with
  | [p], _, h =>
    rw [if_pos (by simp)] at h
    injection h with h
    subst h
    exact ⟨_, rfl, .one p rfl⟩
  | p :: q :: L, _, h =>
    rw [if_neg (by simp)] at h
    obtain ⟨L', h1, rfl⟩ := mergeSame_words (by simp) h
    exact ⟨_, rfl, .many L' (by rw [h1.length_eq]; simp) h1⟩

theorem mergeGroup_empty {n : Nat} {xs : List Builder} (hx : xs ≠ []) (hk : ∀ b ∈ xs, b.kind = .empty) :
    mergeGroup (mergeFuel n) false (.empty, xs) = .ok [.empty] := by
  obtain ⟨x, xs, rfl⟩ := List.exists_cons_of_ne_nil hx
  have hx : x = .empty := by
    have := hk x (by simp)
    cases x <;> simp_all [Builder.kind]
  subst hx
  unfold mergeGroup
  rw [if_neg (by simp)]
  split
  · rename_i h
    simp only [List.length_cons] at h
    have : xs = [] := List.eq_nil_of_length_eq_zero (by omega)
    subst this
    rfl
  · rfl

theorem mergeGroup_skip {n : Nat} {xs : List Builder} :
    mergeGroup (mergeFuel n) true (.empty, xs) = .ok [] := by
  unfold mergeGroup
  rw [if_pos (by simp)]

/-- Labels of words merge into labels of words. -/
theorem merged_labels {bs : List Builder} {L : List (Nat × Nat)} {b : Builder}
    (hb : bs.filter (fun b => decide (b.kind ≠ .empty)) = L.map wordLeaf)
    (he : ∀ b ∈ bs, b.kind = .empty ∨ b.kind = .padding) (h : mergeBuilders bs = .ok b) : LabelShape L b := by
  unfold mergeBuilders at h
  rw [mergeFuel] at h
  have hg := groupByKind_grouped bs
  have hp := groupByKind_perm bs
  generalize groupByKind bs = g at h hg hp
  have hk : ∀ q ∈ g, q.1 = .empty ∨ q.1 = .padding := by
    intro q hq
    obtain ⟨x, xs, hx⟩ := List.exists_cons_of_ne_nil (hg.ne q hq)
    rw [← hg.kinds q hq x (by rw [hx]; simp)]
    exact he x (hp.subset (List.mem_flatMap.2 ⟨q, hq, by rw [hx]; simp⟩))
  have hf := hp.filter (fun b => decide (b.kind ≠ .empty))
  rw [hb] at hf
  have hemp : ∀ xs : List Builder, (∀ b ∈ xs, b.kind = .empty) →
      xs.filter (fun b => decide (b.kind ≠ .empty)) = [] := by
    intro xs hxs
    rw [List.filter_eq_nil_iff]
    intro b hb
    simp [hxs b hb]
  have hpad : ∀ xs : List Builder, (∀ b ∈ xs, b.kind = .padding) →
      xs.filter (fun b => decide (b.kind ≠ .empty)) = xs := by
    intro xs hxs
    rw [List.filter_eq_self]
    intro b hb
    simp [hxs b hb]
  match g, h, hg, hf, hk with
  | [], h, _, _, _ => simp at h
  | [(k, xs)], h, hg, hf, hk =>
    have hxs := hg.kinds (k, xs) (by simp)
    have hne := hg.ne (k, xs) (by simp)
    simp only [List.flatMap_cons, List.flatMap_nil, List.append_nil] at hf
    simp only [List.isEmpty_cons, Bool.false_eq_true, if_false, List.length_cons, List.length_nil, mapM'] at h
    rcases hk (k, xs) (by simp) with hk | hk
    · simp only at hk
      subst hk
      rw [show (decide (1 < 0 + 1)) = false by decide, mergeGroup_empty hne hxs] at h
      rw [hemp xs hxs] at hf
      have : L = [] := by simpa using hf
      injection h with h
      subst h
      exact .none this
    · simp only at hk
      subst hk
      rw [hpad xs hxs] at hf
      obtain ⟨L', rfl, hL'⟩ := perm_map_exists hf L rfl
      cases hm : mergeGroup (mergeFuel (Builder.sizeL bs)) (decide (1 < 0 + 1)) (Kind.padding, L'.map wordLeaf) with
      | error e => rw [hm] at h; cases h
      | ok r =>
        rw [hm] at h
        obtain ⟨b', rfl, hb'⟩ := mergeGroup_words (by rintro rfl; exact hne rfl) hm
        injection h with h
        subst h
        exact hb'.perm hL'
  | [(k, xs), (k', ys)], h, hg, hf, hk =>
    have hxs := hg.kinds (k, xs) (by simp)
    have hne := hg.ne (k, xs) (by simp)
    have hys := hg.kinds (k', ys) (by simp)
    have hne' := hg.ne (k', ys) (by simp)
    have hnd := hg.nodup
    simp only [List.flatMap_cons, List.flatMap_nil, List.append_nil, List.filter_append] at hf
    simp only [List.isEmpty_cons, Bool.false_eq_true, if_false, List.length_cons, List.length_nil, mapM'] at h
    rw [show (decide (1 < 0 + 1 + 1)) = true by decide] at h
    rcases hk (k, xs) (by simp) with h1 | h1 <;> rcases hk (k', ys) (by simp) with h2 | h2 <;>
      simp only at h1 h2 <;> subst h1 <;> subst h2
    · simp at hnd
    · rw [hemp xs hxs, hpad ys hys, List.nil_append] at hf
      obtain ⟨L', rfl, hL'⟩ := perm_map_exists hf L rfl
      rw [mergeGroup_skip] at h
      cases hm : mergeGroup (mergeFuel (Builder.sizeL bs)) true (Kind.padding, L'.map wordLeaf) with
      | error e => rw [hm] at h; cases h
      | ok r =>
        rw [hm] at h
        obtain ⟨b', rfl, hb'⟩ := mergeGroup_words (by rintro rfl; exact hne' rfl) hm
        injection h with h
        subst h
        exact hb'.perm hL'
    · rw [hpad xs hxs, hemp ys hys, List.append_nil] at hf
      obtain ⟨L', rfl, hL'⟩ := perm_map_exists hf L rfl
      rw [mergeGroup_skip] at h
      cases hm : mergeGroup (mergeFuel (Builder.sizeL bs)) true (Kind.padding, L'.map wordLeaf) with
      | error e => rw [hm] at h; cases h
      | ok r =>
        rw [hm] at h
        obtain ⟨b', rfl, hb'⟩ := mergeGroup_words (by rintro rfl; exact hne rfl) hm
        injection h with h
        subst h
        exact hb'.perm hL'
    · simp at hnd
  | q :: q' :: q'' :: g, h, hg, hf, hk =>
    exfalso
    have hnd := hg.nodup
    simp only [List.map_cons, List.nodup_cons, List.mem_cons, not_or] at hnd
    rcases hk q (by simp) with h1 | h1 <;> rcases hk q' (by simp) with h2 | h2 <;>
      rcases hk q'' (by simp) with h3 | h3 <;> simp [h1, h2, h3] at hnd

/-! ### The labels of a list of providers -/

/-- The labels of the providers, with the identities of their builders. -/
def labelIds (ps : List Provider) : List (Nat × Nat) :=
  ps.zipIdx.filterMap (fun p => p.1.labelSpec.map (fun s => (s.ty, p.2)))

/-- The labels of the providers. -/
def labelSpecs (ps : List Provider) : List LeafSpec := ps.filterMap Provider.labelSpec

theorem label_eq (id : Nat) (p : Provider) :
    p.label id = match p.labelSpec with
      | none => .empty
      | some s => wordLeaf (s.ty, id) := by
  cases p <;> rfl

theorem labels_shape {ps : List Provider} {b : Builder}
    (h : mergeBuilders (ps.zipIdx.map (fun p => Provider.label p.2 p.1)) = .ok b) :
    LabelShape (labelIds ps) b := by
  refine merged_labels ?_ ?_ h
  · unfold labelIds
    generalize ps.zipIdx = l
    induction l with
    | nil => rfl
    | cons q l ih =>
      rw [List.map_cons, List.filter_cons, ih, List.filterMap_cons]
      rw [label_eq]
      cases q.1.labelSpec with
      | none => simp [Builder.kind]
      | some s => simp [wordLeaf, Builder.kind]
  · intro b hb
    obtain ⟨q, _, rfl⟩ := List.mem_map.1 hb
    rw [label_eq]
    cases q.1.labelSpec with
    | none => exact Or.inl rfl
    | some s => exact Or.inr rfl

/-- The label with this identity. -/
def labelAt (ps : List Provider) (q : Nat × Nat) : Option LeafSpec := ps[q.2]?.bind Provider.labelSpec

theorem labelIds_specs (ps : List Provider) : (labelIds ps).map (labelAt ps) = (labelSpecs ps).map some := by
  have key : ∀ (l pre : List Provider), ps = pre ++ l →
      ((l.zipIdx pre.length).filterMap (fun p => p.1.labelSpec.map (fun s => (s.ty, p.2)))).map (labelAt ps) =
        (l.filterMap Provider.labelSpec).map some := by
    intro l
    induction l with
    | nil => intro _ _; rfl
    | cons q l ih =>
      intro pre hpre
      have := ih (pre ++ [q]) (by simp [hpre])
      rw [List.length_append, List.length_singleton] at this
      rw [List.zipIdx_cons, List.filterMap_cons, List.filterMap_cons]
      cases hq : q.labelSpec with
      | none => simpa using this
      | some s =>
        simp only [Option.map_some, List.map_cons, this]
        congr 1
        simp [labelAt, hpre, hq]
  exact key ps [] rfl

theorem labelIds_perm {ps : List Provider} {L : List (Nat × Nat)} (h : L.Perm (labelIds ps)) :
    ∃ ss : List LeafSpec, ss.Perm (labelSpecs ps) ∧ L.map (labelAt ps) = ss.map some := by
  have h1 := h.map (labelAt ps)
  rw [labelIds_specs] at h1
  obtain ⟨ss, h2, h3⟩ := perm_map_exists h1 _ rfl
  exact ⟨ss, h3, h2⟩

/-! ### Interpreters -/

/-- The labels of words are interpreted by an interpreter of words with the same name. -/
theorem label_interp {lower : Str → Str} {dataset : List Document} {p : Provider} {s : LeafSpec} {i : Interp}
    (hp : p.labelSpec = some s) (h : s.interp lower dataset = .ok i) : ∃ w, i = .word w ∧ w.name = s.name := by
  cases p <;> simp only [Provider.labelSpec, reduceCtorEq, Option.some.injEq] at hp <;> subst hp <;>
    simp only [LeafSpec.interp] at h <;> split at h <;> cases h <;> exact ⟨_, rfl, rfl⟩

theorem interpL_eq (lf : Nat → Res Interp) (L : List (Nat × Nat)) :
    Builder.interpL lf (L.map (fun p => Builder.leaf p.1 p.2)) = mapM' (fun p => lf p.2) L := by
  induction L with
  | nil => rfl
  | cons q L ih =>
    rw [List.map_cons, Builder.interpL, ih, Builder.interp, mapM']
    cases lf q.2 with
    | error e => rfl
    | ok i => cases mapM' (fun p => lf p.2) L <;> rfl

/-- The interpreter of one word for all labels. -/
def wordsInterp : List WordInterp → Interp
  | [w] => .word w
  | ws => .comp (ws.map .word)

/-- The interpreter of a batch for all labels. -/
def batchInterp (ws : List WordInterp) : Interp :=
  if ws = [] then .nothing else .iter (.iter (wordsInterp ws))

/-- The interpreters of the labels. -/
def LabelInterps (lower : Str → Str) (seen : Seen) (ps : List Provider) (ws : List WordInterp) : Prop :=
  ∃ ss : List LeafSpec, ss.Perm (labelSpecs ps) ∧
    List.Forall₂ (fun s w => s.interp lower (seen s) = .ok (.word w)) ss ws

theorem compInterp_words (ws : List WordInterp) (h : ws ≠ []) :
    compInterp (ws.map .word) = .ok (wordsInterp ws) := by
  match ws, h with
  | [w], _ => rfl
  | v :: w :: ws, _ =>
    simp only [List.map_cons, compInterp, compositeInterp, wordsInterp]
    rw [List.filter_eq_self.2 (by simp [Interp.isNothing])]

theorem providerInterp_eq {lower : Str → Str} {seen : Seen} {ps : List Provider} {q : Nat × Nat}
    {s : LeafSpec} (h : labelAt ps q = some s) : providerInterp lower seen ps q.2 = s.interp lower (seen s) := by
  unfold providerInterp
  rw [show ps[q.2]?.bind Provider.labelSpec = some s from h]

theorem labelAt_spec {ps : List Provider} {q : Nat × Nat} {s : LeafSpec} (h : labelAt ps q = some s) :
    ∃ p ∈ ps, p.labelSpec = some s := by
  unfold labelAt at h
  obtain ⟨p, h1, h2⟩ := Option.bind_eq_some_iff.1 h
  exact ⟨p, List.mem_of_getElem? h1, h2⟩

/-- Interpreting the identities of labels. -/
theorem interps_forall {lower : Str → Str} {seen : Seen} {ps : List Provider} {L : List (Nat × Nat)}
    {ss : List LeafSpec} (hL : L.map (labelAt ps) = ss.map some) {is : List Interp} :
    mapM' (fun q => providerInterp lower seen ps q.2) L = .ok is ↔
      ∃ ws : List WordInterp, is = ws.map .word ∧
        List.Forall₂ (fun s w => s.interp lower (seen s) = .ok (.word w)) ss ws := by
  rw [mapM'_ok_iff]
  induction L generalizing ss is with
  | nil =>
    have : ss = [] := by simpa using hL.symm
    subst this
    constructor
    · intro h; cases h; exact ⟨[], rfl, .nil⟩
    · rintro ⟨ws, rfl, h⟩; cases h; exact .nil
  | cons q L ih =>
    cases ss with
    | nil => cases hL
    | cons s ss =>
      simp only [List.map_cons, List.cons.injEq] at hL
      obtain ⟨p, _, hp⟩ := labelAt_spec hL.1
      constructor
      · intro h
        cases h with
        | cons h1 h2 =>
          rw [providerInterp_eq hL.1] at h1
          obtain ⟨w, rfl, _⟩ := label_interp hp h1
          obtain ⟨ws, rfl, h3⟩ := (ih hL.2).1 h2
          exact ⟨w :: ws, rfl, .cons h1 h3⟩
      · rintro ⟨ws, rfl, h⟩
        cases h with
        | cons h1 h2 =>
          exact .cons (by rw [providerInterp_eq hL.1]; exact h1) ((ih hL.2).2 ⟨_, rfl, h2⟩)

/-- The assembled interpreter. -/
theorem assembleInterp_ok {lower : Str → Str} {seen : Seen} {ps : List Provider} {i : Interp}
    (h : assembleInterp lower seen ps = .ok i) :
    ∃ ws, i = batchInterp ws ∧ LabelInterps lower seen ps ws := by
  unfold assembleInterp at h
  cases hm : mergeBuilders (ps.zipIdx.map (fun p => Provider.label p.2 p.1)) with
  | error e => rw [hm] at h; cases h
  | ok b =>
    rw [hm] at h
    simp only at h
    cases labels_shape hm with
    | none h0 =>
      simp only [Builder.interp, Except.ok.injEq] at h
      subst h
      obtain ⟨ss, h1, h2⟩ := labelIds_perm (L := []) (by rw [h0])
      have : ss = [] := by simpa using h2.symm
      subst this
      exact ⟨[], rfl, [], h1, .nil⟩
    | one q h0 =>
      simp only [wordLeaf, Builder.interp] at h
      cases hq : providerInterp lower seen ps q.2 with
      | error e => rw [hq] at h; cases h
      | ok j =>
        rw [hq] at h
        simp only [Except.ok.injEq] at h
        subst h
        obtain ⟨ss, h1, h2⟩ := labelIds_perm (L := [q]) (by rw [h0])
        obtain ⟨ws, h3, h4⟩ := (interps_forall (lower := lower) (seen := seen) h2 (is := [j])).1
          (by simp only [mapM', hq])
        match ws, h3 with
        | [w], h3 =>
          simp only [List.map_cons, List.map_nil, List.cons.injEq, and_true] at h3
          subst h3
          exact ⟨[w], rfl, ss, h1, h4⟩
    | many L' h0 h1 =>
      simp only [Builder.interp, interpL_eq] at h
      cases hq : mapM' (fun q => providerInterp lower seen ps q.2) L' with
      | error e => rw [hq] at h; cases h
      | ok is =>
        rw [hq] at h
        simp only at h
        obtain ⟨ss, h2, h3⟩ := labelIds_perm h1
        obtain ⟨ws, rfl, h5⟩ := (interps_forall h3).1 hq
        have hne : ws ≠ [] := by
          rintro rfl
          cases h5
          have : L'.map (labelAt ps) = [] := h3
          simp only [List.map_eq_nil_iff] at this
          subst this
          simp at h0
        rw [compInterp_words ws hne] at h
        simp only [Except.ok.injEq] at h
        subst h
        exact ⟨ws, by simp [batchInterp, hne], ss, h2, h5⟩

theorem labelAt_mem {ps : List Provider} {L : List (Nat × Nat)} (h : L.Perm (labelIds ps)) {q : Nat × Nat}
    (hq : q ∈ L) : ∃ s ∈ labelSpecs ps, labelAt ps q = some s := by
  obtain ⟨ss, h1, h2⟩ := labelIds_perm h
  have : labelAt ps q ∈ ss.map some := by rw [← h2]; exact List.mem_map_of_mem hq
  obtain ⟨s, h3, h4⟩ := List.mem_map.1 this
  exact ⟨s, h1.subset h3, h4.symm⟩

theorem assembleInterp_total {lower : Str → Str} {seen : Seen} {ps : List Provider} {b : Builder}
    (hb : mergeBuilders (ps.zipIdx.map (fun p => Provider.label p.2 p.1)) = .ok b)
    (hs : ∀ s ∈ labelSpecs ps, ∃ j, s.interp lower (seen s) = .ok j) :
    ∃ i, assembleInterp lower seen ps = .ok i := by
  unfold assembleInterp
  rw [hb]
  have hl : ∀ L : List (Nat × Nat), L.Perm (labelIds ps) → ∀ q ∈ L,
      ∃ j, providerInterp lower seen ps q.2 = .ok j := by
    intro L hL q hq
    obtain ⟨s, h1, h2⟩ := labelAt_mem hL hq
    rw [providerInterp_eq h2]
    exact hs s h1
  cases labels_shape hb with
  | none h0 => exact ⟨_, rfl⟩
  | one q h0 =>
    obtain ⟨j, hj⟩ := hl [q] (by rw [h0]) q (by simp)
    simp only [wordLeaf, Builder.interp, hj]
    exact ⟨_, rfl⟩
  | many L' h0 h1 =>
    have hm : ∃ is, mapM' (fun q => providerInterp lower seen ps q.2) L' = .ok is := by
      have := hl L' h1
      clear h0 h1 hb hl hs
      induction L' with
      | nil => exact ⟨[], rfl⟩
      | cons q L ih =>
        obtain ⟨j, hj⟩ := this q (by simp)
        obtain ⟨is, his⟩ := ih (fun q hq => this q (by simp [hq]))
        exact ⟨j :: is, mapM'_cons_ok.2 ⟨j, is, hj, his, rfl⟩⟩
    obtain ⟨is, his⟩ := hm
    simp only [Builder.interp, interpL_eq, his]
    obtain ⟨ss, h2, h3⟩ := labelIds_perm h1
    obtain ⟨ws, rfl, h5⟩ := (interps_forall h3).1 his
    have hne : ws ≠ [] := by
      rintro rfl
      cases h5
      have : L'.map (labelAt ps) = [] := h3
      simp only [List.map_eq_nil_iff] at this
      subst this
      simp at h0
    rw [compInterp_words ws hne]
    exact ⟨_, rfl⟩

theorem build_interp {F : Type} {lower : Str → Str} {float : Str → Res F} {zero : F} {tok : Nat → TextToken}
    {dataset : List Document} {p : Provider} {s : LeafSpec} {y : BuiltX F} (hp : p.labelSpec = some s)
    (h : s.build lower float zero tok dataset = .ok y) : ∃ w, s.interp lower dataset = .ok (.word w) := by
  cases p <;> simp only [Provider.labelSpec, reduceCtorEq, Option.some.injEq] at hp <;> subst hp <;>
    simp only [LeafSpec.build] at h <;> simp only [LeafSpec.interp] <;> split at h <;> rename_i hb <;>
    first
      | (cases h; done)
      | (rw [hb]; exact ⟨_, rfl⟩)

/-! ### Running them -/

theorem mapM'_tok {α : Type} {f : α → Res Words} {g : α → Res TextToken}
    (h : ∀ x, f x = (g x).map .tok) (l : List α) : mapM' f l = (mapM' g l).map (List.map .tok) := by
  induction l with
  | nil => rfl
  | cons x l ih =>
    rw [mapM', mapM', h, ih]
    cases g x with
    | error e => rfl
    | ok y => cases mapM' g l <;> rfl

theorem run_words (lower : Str → Str) (ws : List WordInterp) (t : TextToken) (v : Features) :
    (wordsInterp ws).run lower (.tok t) v =
      (compositeInterpret (ws.map (fun i => i.interpret lower)) t v).map .tok := by
  have key : ∀ (ws : List WordInterp) (t : TextToken), Interp.runL lower (ws.map .word) (.tok t) v =
      (compositeInterpret (ws.map (fun i => i.interpret lower)) t v).map .tok := by
    intro ws
    induction ws with
    | nil => intro t; rfl
    | cons w ws ih =>
      intro t
      rw [List.map_cons, Interp.runL, Interp.run, runWord, List.map_cons, compositeInterpret, forM']
      cases w.interpret lower t v with
      | error e => rfl
      | ok t' =>
        simp only
        rw [ih t']
        rfl
  match ws with
  | [] => exact key [] t
  | [w] =>
    rw [wordsInterp, Interp.run, runWord, List.map_cons, List.map_nil, compositeInterpret, forM']
    cases w.interpret lower t v <;> rfl
  | v :: w :: ws => exact key (v :: w :: ws) t

theorem zip_map_left {α β γ : Type} (f : α → γ) (l : List α) (r : List β) :
    (l.map f).zip r = (l.zip r).map (fun p => (f p.1, p.2)) := by
  rw [List.zip_map_left]
  rfl

theorem mapM'_map {α β γ : Type} (f : α → β) (g : β → Res γ) (l : List α) :
    mapM' g (l.map f) = mapM' (fun x => g (f x)) l := by
  induction l with
  | nil => rfl
  | cons x l ih => rw [List.map_cons, mapM', mapM', ih]

theorem run_sentence (lower : Str → Str) (ws : List WordInterp) (ts : List TextToken) (v : Features) :
    (Interp.iter (wordsInterp ws)).run lower (.seq (ts.map .tok)) v =
      (interpretWords lower ws ts v).map (fun l => .seq (l.map .tok)) := by
  rw [Interp.run, runIter, interpretWords]
  cases asSequences v with
  | error e => rfl
  | ok s =>
    simp only
    have : iterInterpret ((wordsInterp ws).run lower) (ts.map .tok) s =
        (iterInterpret (compositeInterpret (ws.map (fun i => i.interpret lower))) ts s).map (List.map .tok) := by
      rw [iterInterpret, zip_map_left, mapM'_map, iterInterpret]
      exact mapM'_tok (fun x : TextToken × Features => run_words lower ws x.1 x.2) _
    rw [this]
    cases iterInterpret (compositeInterpret (ws.map (fun i => i.interpret lower))) ts s <;> rfl

theorem mapM'_seq {α : Type} {f : α → Res Words} {g : α → Res (List TextToken)}
    (h : ∀ x, f x = (g x).map (fun l => .seq (l.map .tok))) (l : List α) :
    mapM' f l = (mapM' g l).map (List.map (fun l => .seq (l.map .tok))) := by
  induction l with
  | nil => rfl
  | cons x l ih =>
    rw [mapM', mapM', h, ih]
    cases g x with
    | error e => rfl
    | ok y => cases mapM' g l <;> rfl

theorem pieceTokens_seq (ts : List TextToken) : pieceTokens (.seq (ts.map .tok)) = .ok ts := by
  rw [pieceTokens, mapM'_map]
  exact (mapM'_ok_iff).2 (List.forall₂_same.2 (fun _ _ => rfl))

theorem chainTokens_seq (tss : List (List TextToken)) :
    chainTokens (.seq (tss.map (fun l => .seq (l.map .tok)))) = .ok tss.flatten := by
  rw [chainTokens, mapM'_map, (mapM'_ok_iff).2 (List.forall₂_same.2 (fun ts _ => pieceTokens_seq ts))]
  rfl

/-- The values predicted for a batch, as sequences. -/
theorem interpretSentence_eq (lower : Str → Str) (ws : List WordInterp) (ts : List TextToken) (pred : Features) :
    interpretSentence lower (.iter (.iter (wordsInterp ws))) ts pred =
      match asSequences pred with
      | .error e => .error e
      | .ok P => tagSentence lower ws ts P := by
  rw [interpretSentence, Interp.run, runIter]
  cases asSequences pred with
  | error e => rfl
  | ok P =>
    simp only
    have : iterInterpret ((Interp.iter (wordsInterp ws)).run lower) [.seq (ts.map .tok)] P =
        (iterInterpret (interpretWords lower ws) [ts] P).map (List.map (fun l => .seq (l.map .tok))) := by
      rw [iterInterpret, show [Words.seq (ts.map .tok)] = [ts].map (fun l => Words.seq (l.map .tok)) from rfl,
        zip_map_left, mapM'_map, iterInterpret]
      exact mapM'_seq (fun x : List TextToken × Features => run_sentence lower ws x.1 x.2) _
    rw [this, tagSentence]
    cases iterInterpret (interpretWords lower ws) [ts] P with
    | error e => rfl
    | ok l =>
      simp only [Except.map]
      exact chainTokens_seq l

/-- What the network predicts, with the values of the labels as sequences. -/
def asPredicted (predict : Document → Sentence → Res Features) (d : Document) (s : Sentence) :
    Res (Dict Str (List Feat)) :=
  match predict d s with
  | .error e => .error e
  | .ok v => asSequences v

theorem tagDocument_eq (lower : Str → Str) (ws : List WordInterp) (hne : ws ≠ [])
    (predict : Document → Sentence → Res Features) (d : Document) :
    tagDocument lower (batchInterp ws) predict d = neuralTag lower ws (asPredicted predict) d := by
  have : ∀ s, predictAndInterpret lower (batchInterp ws) predict d s =
      predictAndTag lower ws (asPredicted predict) d s := by
    intro s
    rw [predictAndInterpret, predictAndTag, asPredicted]
    cases predict d s with
    | error e => rfl
    | ok v =>
      simp only [batchInterp, if_neg hne]
      rw [interpretSentence_eq]
      cases asSequences v <;> rfl
  rw [tagDocument, neuralTag, tagSentences, show predictAndInterpret lower (batchInterp ws) predict d = _ from
    funext this]
  rfl

end Verif
