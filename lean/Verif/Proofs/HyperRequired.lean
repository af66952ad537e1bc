import Verif.Spec.HyperRequired
import Verif.Proofs.Hyper
import Verif.Props.Network

/-!
# Lemmas on entries of the hyperparameters that cannot be left out
-/

namespace Verif

theorem okBind {α β : Type} {x : Res α} {f : α → Res β} {b : β} :
    (x >>= f) = .ok b ↔ ∃ a, x = .ok a ∧ f a = .ok b := by
  cases x with
  | error e => simp [bind, Except.bind]
  | ok a => simp [bind, Except.bind]

theorem okPure {α : Type} {a b : α} : (pure a : Res α) = .ok b ↔ a = b := by
  simp [pure, Except.pure]

theorem mapM'_read {α β : Type} {f : α → Res β} {l : List α} {r : List β} (h : mapM' f l = .ok r) {a : α} (ha : a ∈ l) :
    ∃ b ∈ r, f a = .ok b := by
  rw [mapM'_ok_iff] at h
  induction h with
  | nil => cases ha
  | cons h1 h2 ih =>
    rcases List.mem_cons.mp ha with rfl | ha
    · exact ⟨_, List.mem_cons_self, h1⟩
    · obtain ⟨b, hb, hf⟩ := ih ha
      exact ⟨b, List.mem_cons_of_mem _ hb, hf⟩

theorem mapM'_back {α β : Type} {f : α → Res β} {l : List α} {r : List β} (h : mapM' f l = .ok r) {b : β} (hb : b ∈ r) :
    ∃ a ∈ l, f a = .ok b := by
  rw [mapM'_ok_iff] at h
  induction h with
  | nil => cases hb
  | cons h1 h2 ih =>
    rcases List.mem_cons.mp hb with rfl | hb
    · exact ⟨_, List.mem_cons_self, h1⟩
    · obtain ⟨a, ha, hf⟩ := ih hb
      exact ⟨a, List.mem_cons_of_mem _ ha, hf⟩

/-- All of these paths are there. -/
def AllThere (j : JV) (l : List (List Str)) : Prop := ∀ p ∈ l, (j.find p).isSome = true

theorem AllThere.nil (j : JV) : AllThere j [] := fun _ h => by cases h

theorem AllThere.append {j : JV} {l l' : List (List Str)} (h : AllThere j l) (h' : AllThere j l') :
    AllThere j (l ++ l') := fun p hp => (List.mem_append.mp hp).elim (h p) (h' p)

theorem AllThere.cons {j : JV} {p : List Str} {l : List (List Str)} (h : (j.find p).isSome = true)
    (h' : AllThere j l) : AllThere j (p :: l) := fun q hq =>
  (List.mem_cons.mp hq).elim (fun e => e ▸ h) (h' q)

theorem JV.find_one {j v : JV} {k : Str} : j.find [k] = some v ↔ j.get k = .ok v := by
  rw [JV.get_ok]
  cases j with
  | obj l =>
    simp only [JV.find, Option.bind_eq_some_iff, JV.obj.injEq, exists_eq_left', Option.some.injEq]
    exact ⟨fun ⟨x, h, e⟩ => e ▸ h, fun h => ⟨v, h, rfl⟩⟩
  | _ => simp [JV.find]

theorem JV.find_cons {j v : JV} {k : Str} (h : j.get k = .ok v) (p : List Str) : j.find (k :: p) = v.find p := by
  obtain ⟨l, rfl, hl⟩ := JV.get_ok.mp h
  simp only [JV.find, hl, Option.bind_some]

theorem AllThere.under {j c : JV} {k : Str} {l : List (List Str)} (hg : j.get k = .ok c) (h : AllThere c l) :
    AllThere j (underKey k l) := by
  intro p hp
  obtain ⟨q, hq, rfl⟩ := List.mem_map.mp hp
  rw [JV.find_cons hg]
  exact h q hq

theorem AllThere.section {j : JV} {k : Str} {needs : JV → List (List Str)}
    (h : ∀ c, j.get k = .ok c → AllThere c (needs c)) : AllThere j (inSection j k needs) := by
  unfold inSection
  cases hc : j.find [k] with
  | none => exact .nil _
  | some c => exact .under (JV.find_one.mp hc) (h c (JV.find_one.mp hc))

theorem AllThere.key {j v : JV} {k : String} {l : List String} (h : j.get k.toList = .ok v)
    (h' : AllThere j (keyPaths l)) : AllThere j (keyPaths (k :: l)) := by
  refine .cons ?_ h'
  rw [JV.find_one.mpr h]
  rfl

theorem JV.getD_get {c a v : JV} {k k' : Str} (h : c.getD k (.obj []) = .ok a) (h' : a.get k' = .ok v) :
    c.get k = .ok a := by
  cases c with
  | obj l =>
    simp only [JV.getD, Except.ok.injEq] at h
    cases hx : assocGet k l with
    | none =>
      rw [hx] at h
      subst h
      simp [JV.get, assocGet] at h'
    | some x =>
      rw [hx] at h
      subst h
      simp [JV.get, hx]
  | _ => cases h

theorem JV.getD_of_get {c a d : JV} {k : Str} (h : c.get k = .ok a) : c.getD k d = .ok a := by
  obtain ⟨l, rfl, hl⟩ := JV.get_ok.mp h
  simp [JV.getD, hl]

theorem JV.getD_null {c a : JV} {k : Str} (h : c.getD k .null = .ok a) (h' : a ≠ .null) : c.get k = .ok a := by
  cases c with
  | obj l =>
    simp only [JV.getD, Except.ok.injEq] at h
    cases hx : assocGet k l with
    | none =>
      rw [hx] at h
      exact absurd h.symm h'
    | some x =>
      rw [hx] at h
      subst h
      simp [JV.get, hx]
  | _ => cases h

theorem JV.has_of_get {c a : JV} {k : Str} (h : c.get k = .ok a) : c.has k = .ok true := by
  obtain ⟨l, rfl, hl⟩ := JV.get_ok.mp h
  simp [JV.has, hl]

theorem JV.has_false {c : JV} {k : Str} (h : c.has k = .ok false) : c.find [k] = none := by
  cases hx : c.find [k] with
  | none => rfl
  | some v =>
    rw [JV.has_of_get (JV.find_one.mp hx)] at h
    cases h

theorem JV.has_true {c v : JV} {k k' : Str} (h : c.has k = .ok true) (h' : c.get k' = .ok v) :
    (c.find [k]).isSome = true := by
  obtain ⟨l, rfl, _⟩ := JV.get_ok.mp h'
  simp only [JV.has, Except.ok.injEq] at h
  cases hx : assocGet k l with
  | none => rw [hx] at h; cases h
  | some x => simp [JV.find, hx]

theorem optPart_of {β : Type} {fc c : JV} {k : Str} {f : JV → Res β} {r : Option β} (h : optPart fc k f = .ok r)
    (hc : fc.get k = .ok c) : ∃ b, f c = .ok b ∧ r = some b := by
  simp only [optPart, okBind, JV.has_of_get hc, hc, Except.ok.injEq, exists_eq_left', if_true, okPure] at h
  obtain ⟨b, hb, h⟩ := h
  exact ⟨b, hb, h.symm⟩

/-- The name of a builder and what it stands for. -/
theorem lookup_text {β : Type} {c v : JV} {k : String} {l : List (Str × β)} {b : β} (h : c.get k.toList = .ok v)
    (h' : lookupName l v = .ok b) : assocGet (textAt c k) l = some b := by
  simp only [lookupName, okBind] at h'
  obtain ⟨s, hs, h'⟩ := h'
  have : v = .str s := by
    cases v with
    | str t => cases hs; rfl
    | _ => cases hs
  subst this
  simp only [textAt, JV.find_one.mpr h]
  cases hx : assocGet s l with
  | none => rw [hx] at h'; cases h'
  | some x => rw [hx] at h'; cases h'; rfl

theorem AllThere.pick {c : JV} {s : Str} {table : List (String × List (List Str))}
    (h : ∀ e ∈ table, s = e.1.toList → AllThere c e.2) : AllThere c (pickName s table) := by
  unfold pickName
  cases hf : table.find? (fun p => p.1.toList = s) with
  | none => exact .nil _
  | some e => exact h e (List.mem_of_find?_eq_some hf) (by have := List.find?_some hf; exact (of_decide_eq_true this).symm)

/-! ### Sections -/

theorem aggregator_there {c : JV} {a : Aggregator} (h : aggregatorOf c = .ok a) :
    (∃ v, c.get "aggregator".toList = .ok v) ∧
    AllThere c (pickName (textAt c "aggregator")
      [("rnn", underKey "aggregator_config".toList (keyPaths ["lstm_cell_size", "bilstm_layer_count"])),
       ("cnn", underKey "aggregator_config".toList (keyPaths ["cnn_kernels"]))]) := by
  simp only [aggregatorOf, okBind] at h
  obtain ⟨v, hv, n, hn, ac, hac, h⟩ := h
  have ht := lookup_text hv hn
  refine ⟨⟨v, hv⟩, .pick ?_⟩
  intro e he hs
  rw [hs] at ht
  simp only [List.mem_cons, List.not_mem_nil, or_false] at he
  rcases he with rfl | rfl
  · have hx : assocGet "rnn".toList aggNames = some .rnn := by decide
    obtain rfl : n = .rnn := Option.some.inj (ht.symm.trans hx)
    simp only [okBind] at h
    obtain ⟨x, hx, _, _, y, hy, _⟩ := h
    exact .under (JV.getD_get hac hx) (.key hx (.key hy (.nil _)))
  · have hx : assocGet "cnn".toList aggNames = some .cnn := by decide
    obtain rfl : n = .cnn := Option.some.inj (ht.symm.trans hx)
    simp only [okBind] at h
    obtain ⟨x, hx, _⟩ := h
    exact .under (JV.getD_get hac hx) (.key hx (.nil _))

theorem segmenter_there {w : Outside} {c : JV} {r : Str → List Str} (h : segmenterOf w c = .ok r) :
    ∃ v, c.get "segmenter".toList = .ok v := by
  simp only [segmenterOf, okBind] at h
  obtain ⟨v, hv, _⟩ := h
  exact ⟨v, hv⟩

theorem provider_there {w : Outside} {n : Str} {c : JV} {p : Provider} (h : subwordProvider w n c = .ok p) :
    (∃ v, c.get "segmenter".toList = .ok v) ∧
    ((c.find ["embedding_path".toList]).isSome = true ∨ ∃ v, c.get "min_frequency".toList = .ok v) := by
  simp only [subwordProvider, okBind] at h
  obtain ⟨b, hb, h⟩ := h
  cases b with
  | true =>
    simp only [if_true, okBind] at h
    obtain ⟨v, hv, _, _, s, hs, _⟩ := h
    exact ⟨segmenter_there hs, .inl (by rw [JV.find_one.mpr hv]; rfl)⟩
  | false =>
    simp only [Bool.false_eq_true, if_false, okBind] at h
    obtain ⟨v, hv, _, _, s, hs, _⟩ := h
    exact ⟨segmenter_there hs, .inr ⟨v, hv⟩⟩

theorem subword_there {w : Outside} {n n' : Str} {shapes : Dict Str Shape} {c : JV} {p : Provider}
    {r : Trained SubwordCfg} (h : subwordProvider w n c = .ok p) (h' : subwordCfgOf shapes n' c = .ok r) :
    AllThere c (subwordNeeds c) := by
  obtain ⟨⟨v, hv⟩, hf⟩ := provider_there h
  simp only [subwordCfgOf, okBind] at h'
  obtain ⟨b, hb, _, _, h'⟩ := h'
  cases b with
  | true =>
    simp only [if_true, okBind] at h'
    obtain ⟨_, _, t, ht, a, ha, _⟩ := h'
    obtain ⟨⟨g, hg⟩, hag⟩ := aggregator_there ha
    refine .append (.append (.key hv (.key hg (.nil _))) ?_) hag
    split
    · exact .key ht (.nil _)
    · rename_i hn
      exact absurd (JV.has_true hb ht) hn
  | false =>
    simp only [Bool.false_eq_true, if_false, okBind] at h'
    obtain ⟨t, ht, _, _, a, ha, _⟩ := h'
    obtain ⟨⟨g, hg⟩, hag⟩ := aggregator_there ha
    refine .append (.append (.key hv (.key hg (.nil _))) ?_) hag
    rw [JV.has_false hb] at hf ⊢
    simp only [Option.isSome_none, Bool.false_eq_true, false_or] at hf
    obtain ⟨m, hm⟩ := hf
    exact .key hm (.key ht (.nil _))

theorem features_there {w : Outside} {shapes : Dict Str Shape} {fc : JV} {ps : List Provider} {r : SharedRead}
    (h : sharedProviders w fc = .ok ps) (h' : sharedCfgOf shapes fc = .ok r) : AllThere fc (featuresNeeds fc) := by
  simp only [sharedProviders, okBind] at h
  obtain ⟨a, ha, b, hb, x, hx, y, hy, z, hz, _⟩ := h
  simp only [sharedCfgOf, okBind] at h'
  obtain ⟨a', ha', b', hb', x', hx', y', hy', z', hz', _⟩ := h'
  refine .append (.append (.append (.append (.section ?_) (.section ?_)) (.section ?_)) (.section ?_)) (.section ?_)
  · intro c hc
    obtain ⟨_, h1, _⟩ := optPart_of ha hc
    obtain ⟨_, h2, _⟩ := optPart_of ha' hc
    simp only [wordProvider, okBind] at h1
    simp only [wordCfgOf, okBind] at h2
    obtain ⟨_, k1, _, _, _, k2, _⟩ := h1
    obtain ⟨_, _, _, k3, _⟩ := h2
    exact .key k1 (.key k2 (.key k3 (.nil _)))
  · intro c hc
    obtain ⟨_, h1, _⟩ := optPart_of hb hc
    obtain ⟨_, h2, _⟩ := optPart_of hb' hc
    simp only [trainedProvider, okBind] at h1
    simp only [trainedCfgOf, okBind] at h2
    obtain ⟨_, k1, _, _, _, k2, _⟩ := h1
    obtain ⟨_, k3, _, _, _, k4, _⟩ := h2
    exact .key k1 (.key k2 (.key k3 (.key k4 (.nil _))))
  · intro c hc
    obtain ⟨_, h1, _⟩ := optPart_of hx hc
    obtain ⟨_, h2, _⟩ := optPart_of hx' hc
    exact subword_there h1 h2
  · intro c hc
    obtain ⟨_, h1, _⟩ := optPart_of hy hc
    obtain ⟨_, h2, _⟩ := optPart_of hy' hc
    exact subword_there h1 h2
  · intro c hc
    obtain ⟨_, h1, _⟩ := optPart_of hz hc
    obtain ⟨_, h2, _⟩ := optPart_of hz' hc
    exact subword_there h1 h2

theorem kind_there {s c v : JV} {n : SharedName} {k : SharedKind} {f : SharedCfg} (hs : s.get "builder".toList = .ok v)
    (hn : lookupName sharedNames v = .ok n) (h : sharedKindOf c n = .ok k) (hk : k.Ok f) :
    AllThere c (pickName (textAt s "builder")
      [("BiLSTM", keyPaths ["lstm_cell_size"]),
       ("BiLSTM_CNN", keyPaths ["lstm_cell_size", "cnn_kernels"]),
       ("Dilated_CNN", keyPaths ["cnn_kernels"])]) := by
  have ht := lookup_text hs hn
  refine .pick ?_
  intro e he hs
  rw [hs] at ht
  simp only [List.mem_cons, List.not_mem_nil, or_false] at he
  rcases he with rfl | rfl | rfl
  · have hx : assocGet "BiLSTM".toList sharedNames = some .bilstm := by decide
    obtain rfl : n = .bilstm := Option.some.inj (ht.symm.trans hx)
    simp only [sharedKindOf, okBind] at h
    obtain ⟨_, k1, _⟩ := h
    exact .key k1 (.nil _)
  · have hx : assocGet "BiLSTM_CNN".toList sharedNames = some .bilstmCnn := by decide
    obtain rfl : n = .bilstmCnn := Option.some.inj (ht.symm.trans hx)
    simp only [sharedKindOf, okBind] at h
    obtain ⟨_, k1, _, _, _, _, _, _, _, _, _, k2, _⟩ := h
    exact .key k1 (.key k2 (.nil _))
  · have hx : assocGet "Dilated_CNN".toList sharedNames = some .dilatedCnn := by decide
    obtain rfl : n = .dilatedCnn := Option.some.inj (ht.symm.trans hx)
    simp only [sharedKindOf, okBind] at h
    obtain ⟨_, _, ks, k1, h⟩ := h
    have hne : ks ≠ .null := by
      rintro rfl
      simp only [okPure] at h
      subst h
      exact hk
    exact .key (JV.getD_null k1 hne) (.nil _)

theorem weights_there {c : JV} {ws : List (Str × Rat)} (h : weightsOf c = .ok (some ws)) :
    ∃ v, c.get "loss_weights".toList = .ok v := by
  simp only [weightsOf, okBind] at h
  obtain ⟨v, hv, h⟩ := h
  refine ⟨v, JV.getD_null hv ?_⟩
  rintro rfl
  cases h

theorem dense_there {shapes : Dict Str Shape} {c : JV} {task : Task} {t : TaskRead} {net : NetCfg}
    (h : denseRead shapes c task = .ok t) (ht : task = .posDense ∨ task = .lemmaDense ∨ task = .lemmaSuffix)
    (hok : t.cfg.Ok net) : AllThere c (keyPaths ["shared_name", "dense_size", "loss_weights"]) := by
  simp only [denseRead, okBind, okPure] at h
  obtain ⟨_, k1, _, _, _, k2, _, _, ws, k3, sl, _, rfl⟩ := h
  have : ∃ w, ws = some w := by
    cases ws with
    | some w => exact ⟨w, rfl⟩
    | none =>
      rcases ht with rfl | rfl | rfl <;> exact absurd hok.2.2 (by simp)
  obtain ⟨w, rfl⟩ := this
  obtain ⟨v, k3⟩ := weights_there k3
  exact .key k1 (.key k2 (.key k3 (.nil _)))

theorem task_there {w : Outside} {shapes : Dict Str Shape} {t : JV} {ps : List Provider} {r : TaskRead} {net : NetCfg}
    (hc : checkTask t = .ok ()) (hp : taskProviders w t = .ok ps) (hr : taskRead shapes t = .ok r)
    (hok : r.cfg.Ok net) : AllThere t (taskNeeds t) := by
  simp only [checkTask, okBind] at hc
  obtain ⟨v, hv, n, hn, c, hcc, fc, hfc, hc⟩ := hc
  simp only [taskProviders, okBind, hv, hn, hcc, hfc, Except.ok.injEq, exists_eq_left'] at hp
  simp only [taskRead, okBind, hv, hn, hcc, hfc, Except.ok.injEq, exists_eq_left'] at hr
  have ht := lookup_text hv hn
  refine .append (.append (.key hv (.key hcc (.nil _))) (.under hcc (.pick ?_))) (.pick ?_)
  · intro e he hs
    rw [hs] at ht
    simp only [List.mem_cons, List.not_mem_nil, or_false] at he
    rcases he with rfl | rfl | rfl | rfl
    · have hx : assocGet "pos_dense".toList taskNames = some .posDense := by decide
      obtain rfl : n = .posDense := Option.some.inj (ht.symm.trans hx)
      have h1 := dense_there hr (.inl rfl) hok
      simp only [checkTaskConfig, okBind] at hc
      obtain ⟨_, _, _, k, _⟩ := hc
      have h2 : AllThere c (keyPaths ["splitting"]) := .key k (.nil _)
      exact AllThere.append h1 h2
    · have hx : assocGet "lemma_dense".toList taskNames = some .lemmaDense := by decide
      obtain rfl : n = .lemmaDense := Option.some.inj (ht.symm.trans hx)
      exact dense_there hr (.inr (.inl rfl)) hok
    · have hx : assocGet "lemma_suffix".toList taskNames = some .lemmaSuffix := by decide
      obtain rfl : n = .lemmaSuffix := Option.some.inj (ht.symm.trans hx)
      exact dense_there hr (.inr (.inr rfl)) hok
    · have hx : assocGet "lemma_combo".toList taskNames = some .lemmaCombo := by decide
      obtain rfl : n = .lemmaCombo := Option.some.inj (ht.symm.trans hx)
      simp only [checkTaskConfig, okBind] at hc
      obtain ⟨_, k1, _, _, _, _, _, k2, _, k3, _, _, _, _, ws, kw, _, kl, _⟩ := hc
      have hne : ws ≠ .null := by rintro rfl; cases kl
      exact .append (.key k1 (.key k2 (.key k3 (.nil _)))) (.under (JV.getD_null kw hne) (.key kl (.nil _)))
  · intro e he hs
    rw [hs] at ht
    simp only [List.mem_cons, List.not_mem_nil, or_false] at he
    rcases he with rfl | rfl
    · have hx : assocGet "lemma_suffix".toList taskNames = some .lemmaSuffix := by decide
      obtain rfl : n = .lemmaSuffix := Option.some.inj (ht.symm.trans hx)
      simp only [taskProvidersOf, rulesProvider, okBind] at hp
      obtain ⟨_, k1, _, k2, _⟩ := hp
      exact .under (JV.getD_get hfc k1) (.under k1 (.key k2 (.nil _)))
    · have hx : assocGet "lemma_combo".toList taskNames = some .lemmaCombo := by decide
      obtain rfl : n = .lemmaCombo := Option.some.inj (ht.symm.trans hx)
      simp only [checkTaskConfig, okBind] at hc
      obtain ⟨_, _, _, ki, _, ke, _⟩ := hc
      simp only [taskProvidersOf, okBind] at hp
      obtain ⟨_, ko, a, ha, _, ki', b, hb, _⟩ := hp
      simp only [lemmaCharsProvider, okBind] at ha
      obtain ⟨_, o1, _, _, _, o2, _, _, _, hs', _⟩ := ha
      obtain ⟨_, o3⟩ := segmenter_there hs'
      have hf := JV.getD_get hfc ki
      refine .append (.under hf (.append (.key ki (.nil _)) (.under ko (.key o1 (.key o2 (.key o3 (.nil _))))))) ?_
      refine .section (fun fc' hfc' => .section (fun ic hic => ?_))
      rw [hf] at hfc'
      cases hfc'
      rw [hic] at ki ki'
      cases ki
      cases ki'
      obtain ⟨⟨_, k1⟩, hm⟩ := provider_there hb
      refine .append (.key k1 (.key ke (.nil _))) ?_
      split
      · exact .nil _
      · rename_i hn'
        rcases hm with hm | ⟨_, hm⟩
        · exact absurd hm hn'
        · exact .key hm (.nil _)

theorem checkEach_mem {ts : List JV} (h : checkEach ts = .ok ()) {t : JV} (ht : t ∈ ts) : checkTask t = .ok () := by
  induction ts with
  | nil => cases ht
  | cons x xs ih =>
    simp only [checkEach, okBind] at h
    obtain ⟨_, h1, h2⟩ := h
    rcases List.mem_cons.mp ht with rfl | ht
    · exact h1
    · exact ih h2 ht

theorem iter_words {t : JV} {l : List JV} (h : t.iter = .ok l) {s : Str} (hs : s ∈ t.words) : JV.str s ∈ l := by
  cases t with
  | arr l' =>
    simp only [JV.iter, Except.ok.injEq] at h
    subst h
    obtain ⟨x, hx, he⟩ := List.mem_filterMap.mp hs
    cases x with
    | str s' => simp only [Option.some.injEq] at he; exact he ▸ hx
    | _ => cases he
  | str s' =>
    simp only [JV.iter, Except.ok.injEq] at h
    subst h
    obtain ⟨c, hc, rfl⟩ := List.mem_map.mp hs
    exact List.mem_map.mpr ⟨c, hc, rfl⟩
  | obj l' =>
    simp only [JV.iter, Except.ok.injEq] at h
    subst h
    obtain ⟨c, hc, rfl⟩ := List.mem_map.mp hs
    exact List.mem_map.mpr ⟨c, hc, rfl⟩
  | _ => cases h

end Verif
