import Verif.Proofs.Interpreters4

/-! # Proofs about what the features of a sentence depend on -/

namespace Verif

/-- Both calls return, with related results, or both raise the same exception. -/
inductive OutRel {α β : Type} (S : α → β → Prop) : Res α → Res β → Prop
  | ok {a : α} {b : β} (h : S a b) : OutRel S (.ok a) (.ok b)
  | error (e : Err) : OutRel S (.error e) (.error e)

theorem OutRel.elim {α β : Type} {S : α → β → Prop} {r : Res α} {r' : Res β} (h : OutRel S r r') :
    (∃ a b, r = .ok a ∧ r' = .ok b ∧ S a b) ∨ ∃ e, r = .error e ∧ r' = .error e := by
  cases h with
  | ok h => exact .inl ⟨_, _, rfl, rfl, h⟩
  | error e => exact .inr ⟨e, rfl, rfl⟩

theorem OutRel.bind {α β γ δ : Type} {S : α → β → Prop} {T : γ → δ → Prop} {r : Res α} {r' : Res β}
    {f : α → Res γ} {g : β → Res δ} (h : OutRel S r r') (hf : ∀ a b, S a b → OutRel T (f a) (g b)) :
    OutRel T (r >>= f) (r' >>= g) := by
  cases h with
  | ok h => exact hf _ _ h
  | error e => exact .error e

theorem OutRel.imp {α β : Type} {S T : α → β → Prop} (h : ∀ a b, S a b → T a b) {r : Res α} {r' : Res β}
    (hr : OutRel S r r') : OutRel T r r' := by
  cases hr with
  | ok hs => exact .ok (h _ _ hs)
  | error e => exact .error e

theorem OutRel.of_eq {α : Type} {r r' : Res α} (h : r = r') : OutRel Eq r r' := by
  subst h
  cases r with
  | ok a => exact .ok rfl
  | error e => exact .error e

theorem mapM'_outRel {α β γ δ : Type} {S : γ → δ → Prop} {f : α → Res γ} {g : β → Res δ} {l : List α} {l' : List β}
    (h : List.Forall₂ (fun a b => OutRel S (f a) (g b)) l l') : OutRel (List.Forall₂ S) (mapM' f l) (mapM' g l') := by
  induction h with
  | nil => exact .ok .nil
  | @cons a b l l' h1 _ ih =>
    simp only [mapM']
    rcases h1.elim with ⟨x, y, e1, e2, hs⟩ | ⟨e, e1, e2⟩
    · rcases ih.elim with ⟨xs, ys, e3, e4, ht⟩ | ⟨e, e3, e4⟩
      · rw [e1, e2, e3, e4]
        exact .ok (.cons hs ht)
      · rw [e1, e2, e3, e4]
        exact .error e
    · rw [e1, e2]
      exact .error e

theorem mapM'_congr2 {α β γ : Type} {f : α → Res γ} {g : β → Res γ} {l : List α} {l' : List β}
    (h : List.Forall₂ (fun a b => f a = g b) l l') : mapM' f l = mapM' g l' := by
  induction h with
  | nil => rfl
  | @cons a b l l' h1 _ ih => simp only [mapM', h1, ih]

section
variable {F : Type} (Q : Nat → Obj → Obj → Prop)

/-- The same, but for objects that correspond to each other. -/
structure BuiltRel (n : Nat) (x x' : BuiltX F) : Prop where
  shapes : x.shapes = x'.shapes
  initial : x.initial = x'.initial
  extract : ∀ o o', Q n o o' → x.extract o = x'.extract o'

/-- How many of the wrappers go to the elements. -/
def iterDepth (ws : List Wrapper) : Nat := ws.countP (fun w => match w with | .iter => true | _ => false)

variable {Q}

theorem compBuilt_rel {n : Nat} {xs xs' : List (BuiltX F)} (h : List.Forall₂ (BuiltRel Q n) xs xs') :
    OutRel (BuiltRel Q n) (compBuilt xs) (compBuilt xs') := by
  cases h with
  | nil => exact .error _
  | @cons a b l l' h1 h2 =>
    cases h2 with
    | nil => exact .ok h1
    | @cons a2 b2 l l' h3 h4 =>
      have h := List.Forall₂.cons h1 (List.Forall₂.cons h3 h4)
      refine .ok ⟨?_, ?_, ?_⟩
      · show mergeInit _ = mergeInit _
        congr 1
        exact List.forall₂_eq_eq_eq ▸ (List.forall₂_map_left_iff.2 (List.forall₂_map_right_iff.2
          (h.imp (fun x x' hx => hx.shapes))))
      · show mergeInit _ = mergeInit _
        congr 1
        exact List.forall₂_eq_eq_eq ▸ (List.forall₂_map_left_iff.2 (List.forall₂_map_right_iff.2
          (h.imp (fun x x' hx => hx.initial))))
      · intro o o' ho
        show compX _ o = compX _ o'
        unfold compX
        have : mapM' (fun x : Extractor => x o) ((a :: a2 :: l).map BuiltX.extract) =
            mapM' (fun x : Extractor => x o') ((b :: b2 :: l').map BuiltX.extract) :=
          mapM'_congr2 (List.forall₂_map_left_iff.2 (List.forall₂_map_right_iff.2
            (h.imp (fun x x' hx => hx.extract o o' ho))))
        rw [this]

variable {sp sp' : Sparsify} (hQ : ∀ n o o', Q n o o' → List.Forall₂ (Q (n + 1)) o.items o'.items)
  (hsp : ∀ n o o' k v, Q n o o' → sp o k v = sp' o' k v)

include hQ hsp

mutual
theorem build_rel {lf lf' : Nat → Res (BuiltX F)} : ∀ (b : Builder) (n : Nat),
    (∀ ws ty id, (ws, some (ty, id)) ∈ b.leaves → OutRel (BuiltRel Q (n + iterDepth ws)) (lf id) (lf' id)) →
    OutRel (BuiltRel Q n) (b.build lf sp) (b.build lf' sp')
  | .padding b, n, h => by
    have ih := build_rel (lf := lf) (lf' := lf') b n (fun ws ty id hm => by
      have := h (.padding :: ws) ty id (List.mem_map.2 ⟨(ws, some (ty, id)), hm, rfl⟩)
      simpa [iterDepth] using this)
    simp only [Builder.build]
    rcases ih.elim with ⟨x, x', e1, e2, hx⟩ | ⟨e, e1, e2⟩
    rotate_left
    · rw [e1, e2]
      exact .error e
    · rw [e1, e2]
      refine .ok ⟨hx.shapes, hx.initial, fun o o' ho => ?_⟩
      show padX _ o = padX _ o'
      simp only [padX, hx.extract o o' ho]
  | .sparse b, n, h => by
    have ih := build_rel (lf := lf) (lf' := lf') b n (fun ws ty id hm => by
      have := h (.sparse :: ws) ty id (List.mem_map.2 ⟨(ws, some (ty, id)), hm, rfl⟩)
      simpa [iterDepth] using this)
    simp only [Builder.build]
    rcases ih.elim with ⟨x, x', e1, e2, hx⟩ | ⟨e, e1, e2⟩
    rotate_left
    · rw [e1, e2]
      exact .error e
    · rw [e1, e2]
      refine .ok ⟨hx.shapes, hx.initial, fun o o' ho => ?_⟩
      show sparseAt _ _ o = sparseAt _ _ o'
      simp only [sparseAt, hx.extract o o' ho, hsp n o o' _ _ ho]
  | .iter b, n, h => by
    have ih := build_rel (lf := lf) (lf' := lf') b (n + 1) (fun ws ty id hm => by
      have := h (.iter :: ws) ty id (List.mem_map.2 ⟨(ws, some (ty, id)), hm, rfl⟩)
      rw [show n + 1 + iterDepth ws = n + iterDepth (.iter :: ws) by simp [iterDepth]; omega]
      exact this)
    simp only [Builder.build]
    rcases ih.elim with ⟨x, x', e1, e2, hx⟩ | ⟨e, e1, e2⟩
    rotate_left
    · rw [e1, e2]
      exact .error e
    · rw [e1, e2]
      refine .ok ⟨hx.shapes, hx.initial, fun o o' ho => ?_⟩
      show iterX _ o = iterX _ o'
      simp only [iterX]
      rw [mapM'_congr2 ((hQ n o o' ho).imp (fun a b hab => hx.extract a b hab))]
  | .comp l, n, h => by
    have ih := build_relL (lf := lf) (lf' := lf') l n h
    simp only [Builder.build]
    rcases ih.elim with ⟨x, x', e1, e2, hx⟩ | ⟨e, e1, e2⟩
    · rw [e1, e2]
      exact compBuilt_rel hx
    · rw [e1, e2]
      exact .error e
  | .empty, n, h => .ok ⟨rfl, rfl, fun _ _ _ => rfl⟩
  | .leaf ty id, n, h => by
    have := h [] ty id (by simp [Builder.leaves])
    simpa [Builder.build, iterDepth] using this
theorem build_relL {lf lf' : Nat → Res (BuiltX F)} : ∀ (l : List Builder) (n : Nat),
    (∀ ws ty id, (ws, some (ty, id)) ∈ Builder.leavesL l →
      OutRel (BuiltRel Q (n + iterDepth ws)) (lf id) (lf' id)) →
    OutRel (List.Forall₂ (BuiltRel Q n)) (Builder.buildL lf sp l) (Builder.buildL lf' sp' l)
  | [], n, h => .ok .nil
  | b :: bs, n, h => by
    have h1 := build_rel (lf := lf) (lf' := lf') b n (fun ws ty id hm => h ws ty id (List.mem_append_left _ hm))
    have h2 := build_relL (lf := lf) (lf' := lf') bs n (fun ws ty id hm => h ws ty id (List.mem_append_right _ hm))
    simp only [Builder.buildL]
    rcases h1.elim with ⟨x, y, e1, e2, hs⟩ | ⟨e, e1, e2⟩
    · rcases h2.elim with ⟨xs, ys, e3, e4, ht⟩ | ⟨e, e3, e4⟩
      · rw [e1, e2, e3, e4]
        exact .ok (.cons hs ht)
      · rw [e1, e2, e3, e4]
        exact .error e
    · rw [e1, e2]
      exact .error e
end

end

/-! ### The features of a sentence -/

section
variable {F : Type} {lower : Str → Str} {float : Str → Res F} {zero : F} {tok tok' : Nat → TextToken}
  {dataset : List Document} {seen : Seen}

/-- Batches, sentences and tokens that correspond to each other: the tokens have the same text. -/
def SameText (tok tok' : Nat → TextToken) (hs hs' : List Nat) : Nat → Obj → Obj → Prop
  | 0, o, o' => o = .mk 0 [.mk 0 (hs.map (fun k => .mk k []))] ∧ o' = .mk 0 [.mk 0 (hs'.map (fun k => .mk k []))]
  | 1, o, o' => o = .mk 0 (hs.map (fun k => .mk k [])) ∧ o' = .mk 0 (hs'.map (fun k => .mk k []))
  | 2, o, o' => ∃ k k', o = .mk k [] ∧ o' = .mk k' [] ∧ (tok k).1 = (tok' k').1
  | _, _, _ => False

theorem SameText.items {hs hs' : List Nat} (h : List.Forall₂ (fun k k' => (tok k).1 = (tok' k').1) hs hs') :
    ∀ n o o', SameText tok tok' hs hs' n o o' → List.Forall₂ (SameText tok tok' hs hs' (n + 1)) o.items o'.items
  | 0, _, _, ⟨rfl, rfl⟩ => .cons ⟨rfl, rfl⟩ .nil
  | 1, _, _, ⟨rfl, rfl⟩ => by
    show List.Forall₂ _ (hs.map _) (hs'.map _)
    rw [List.forall₂_map_left_iff, List.forall₂_map_right_iff]
    exact h.imp (fun k k' hk => ⟨k, k', rfl, rfl, hk⟩)
  | 2, _, _, ⟨_, _, rfl, rfl, _⟩ => .nil
  | n + 3, _, _, h => h.elim

theorem tokenX_rel {hs hs' : List Nat} {name : Str} {get : TextToken → Res Feat}
    (hget : ∀ t t' : TextToken, t.1 = t'.1 → get t = get t') :
    ∀ o o', SameText tok tok' hs hs' 2 o o' → tokenX tok name get o = tokenX tok' name get o' := by
  rintro _ _ ⟨k, k', rfl, rfl, h⟩
  simp only [tokenX, hget _ _ h]

/-- The features of tokens depend on their text only. -/
theorem leaf_rel {hs hs' : List Nat} {p : Provider} {s : LeafSpec} (hp : p.featureSpec = some s)
    (hn : ∀ f, p ≠ .sentLength f) :
    OutRel (BuiltRel (SameText tok tok' hs hs') 2) (s.build lower float zero tok dataset)
      (s.build lower float zero tok' dataset) := by
  cases p with
  | sentLength f => exact absurd rfl (hn f)
  | wordEmb f i l lc =>
    simp only [Provider.featureSpec, Option.some.injEq] at hp
    subst hp
    simp only [LeafSpec.build]
    cases readEmbeddings float l with
    | error e => exact .error e
    | ok st => exact .ok ⟨rfl, rfl, by
      simp only [embInit, constInit]
      exact tokenX_rel (fun t t' h => by simp only [h])⟩
  | trainable f t lc =>
    simp only [Provider.featureSpec, Option.some.injEq] at hp
    subst hp
    exact .ok ⟨rfl, rfl, by
      simp only [embInit, constInit]
      exact tokenX_rel (fun t t' h => by simp only [h])⟩
  | subwordEmb f i l sg =>
    simp only [Provider.featureSpec, Option.some.injEq] at hp
    subst hp
    simp only [LeafSpec.build]
    cases readEmbeddings float l with
    | error e => exact .error e
    | ok st => exact .ok ⟨rfl, rfl, by
      simp only [embInit, constInit]
      exact tokenX_rel (fun t t' h => by simp only [h])⟩
  | subwords f t sg =>
    simp only [Provider.featureSpec, Option.some.injEq] at hp
    subst hp
    exact .ok ⟨rfl, rfl, by
      simp only [embInit, constInit]
      exact tokenX_rel (fun t t' h => by simp only [h])⟩
  | lemmaDict l => simp [Provider.featureSpec] at hp
  | posDict l sg => simp [Provider.featureSpec] at hp
  | lemmaRules f l t =>
    simp only [Provider.featureSpec, Option.some.injEq] at hp
    subst hp
    simp only [LeafSpec.build]
    cases buildRules lower t dataset with
    | error e => exact .error e
    | ok table => exact .ok ⟨rfl, rfl, by
      simp only [embInit, constInit]
      exact tokenX_rel (fun t t' h => by simp only [h])⟩
  | lemmaChars l t m sg => simp [Provider.featureSpec] at hp

/-- Features of a sentence are the same for the same words, and so is whether they can be extracted. -/
theorem features_rel {sp sp' : Sparsify} {ps : List Provider} {hs hs' : List Nat}
    (h : List.Forall₂ (fun k k' => (tok k).1 = (tok' k').1) hs hs')
    (hsp : ∀ n o o' k v, SameText tok tok' hs hs' n o o' → sp o k v = sp' o' k v) {f : Builder}
    (hf : mergeBuilders (ps.zipIdx.map (fun p => Provider.feature p.2 p.1)) = .ok f) :
    OutRel (BuiltRel (SameText tok tok' hs hs') 0)
      (f.build (buildSpec lower float zero tok seen Provider.featureSpec ps) sp)
      (f.build (buildSpec lower float zero tok' seen Provider.featureSpec ps) sp') := by
  refine build_rel (SameText.items h) hsp f 0 ?_
  intro ws ty id hm
  obtain ⟨p, s, hp, hps, _, hl⟩ := merged_leaves feature_mk hf hm
  have hb : ∀ tok : Nat → TextToken, buildSpec lower float zero tok seen Provider.featureSpec ps id =
      s.build lower float zero tok (seen s) := by
    intro tok
    simp [buildSpec, hp, hps]
  rw [hb, hb, Nat.zero_add]
  rw [feature_leaves, hps] at hl
  cases p with
  | sentLength n =>
    simp only [Provider.featureSpec, Option.some.injEq] at hps
    subst hps
    simp only [List.cons.injEq, Prod.mk.injEq, and_true] at hl
    rw [← hl.1]
    refine .ok ⟨rfl, rfl, ?_⟩
    rintro _ _ ⟨rfl, rfl⟩
    simp [Obj.items, h.length_eq]
  | wordEmb f i l lc =>
    simp only [List.cons.injEq, Prod.mk.injEq, and_true] at hl
    rw [← hl.1]
    exact leaf_rel hps (by simp)
  | trainable f t lc =>
    simp only [List.cons.injEq, Prod.mk.injEq, and_true] at hl
    rw [← hl.1]
    exact leaf_rel hps (by simp)
  | subwordEmb f i l sg =>
    simp only [List.cons.injEq, Prod.mk.injEq, and_true] at hl
    rw [← hl.1]
    exact leaf_rel hps (by simp)
  | subwords f t sg =>
    simp only [List.cons.injEq, Prod.mk.injEq, and_true] at hl
    rw [← hl.1]
    exact leaf_rel hps (by simp)
  | lemmaDict l => simp [Provider.featureSpec] at hps
  | posDict l sg => simp [Provider.featureSpec] at hps
  | lemmaRules f l t =>
    simp only [List.cons.injEq, Prod.mk.injEq, and_true] at hl
    rw [← hl.1]
    exact leaf_rel hps (by simp)
  | lemmaChars l t m sg => simp [Provider.featureSpec] at hps

end

end Verif
