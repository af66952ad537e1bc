import Verif.Spec.HyperTypes
import Verif.Proofs.HyperRequired

/-!
# Lemmas on the types of the entries of the hyperparameters
-/

namespace Verif

/-- All of these entries that are there have their types. -/
def AllTyped (j : JV) (l : Typed) : Prop := ∀ e ∈ l, ∀ v, j.find e.1 = some v → e.2.Has v

theorem AllTyped.nil (j : JV) : AllTyped j [] := fun _ h => by cases h

theorem AllTyped.append {j : JV} {l l' : Typed} (h : AllTyped j l) (h' : AllTyped j l') : AllTyped j (l ++ l') :=
  fun p hp => (List.mem_append.mp hp).elim (h p) (h' p)

theorem AllTyped.under {j : JV} {k : Str} {l : Typed} (h : ∀ c, j.get k = .ok c → AllTyped c l) :
    AllTyped j (typedUnder k l) := by
  intro e he v hv
  obtain ⟨q, hq, rfl⟩ := List.mem_map.mp he
  cases j with
  | obj o =>
    simp only [JV.find, Option.bind_eq_some_iff] at hv
    obtain ⟨c, hc, hv⟩ := hv
    exact h c (JV.get_ok.mpr ⟨o, rfl, hc⟩) q hq v hv
  | _ => cases hv

theorem AllTyped.section {j : JV} {k : Str} {f : JV → Typed} (h : ∀ c, j.get k = .ok c → AllTyped c (f c)) :
    AllTyped j (typedSection j k f) := by
  unfold typedSection
  cases hc : j.find [k] with
  | none => exact .nil _
  | some c =>
    refine .under (fun c' hc' => ?_)
    rw [JV.find_one.mp hc] at hc'
    cases hc'
    exact h c (JV.find_one.mp hc)

theorem AllTyped.key {j : JV} {k : String} {t : EntryType} {l : List (String × EntryType)}
    (h : ∀ v, j.get k.toList = .ok v → t.Has v) (h' : AllTyped j (typedKeys l)) :
    AllTyped j (typedKeys ((k, t) :: l)) := by
  intro e he v hv
  rcases List.mem_cons.mp he with rfl | he
  · exact h v (JV.find_one.mp hv)
  · exact h' e he v hv

theorem AllTyped.one {j : JV} {k : String} {t : EntryType} (h : ∀ v, j.get k.toList = .ok v → t.Has v) :
    AllTyped j (typedKeys [(k, t)]) := .key h (.nil _)

theorem AllTyped.pick {c : JV} {s : Str} {table : List (String × Typed)}
    (h : ∀ e ∈ table, s = e.1.toList → AllTyped c e.2) : AllTyped c (typedPick s table) := by
  unfold typedPick
  cases hf : table.find? (fun p => p.1.toList = s) with
  | none => exact .nil _
  | some e => exact h e (List.mem_of_find?_eq_some hf) (by have := List.find?_some hf; exact (of_decide_eq_true this).symm)

/-- What has been read is what is there. -/
theorem has_got {j v v' : JV} {k : Str} {t : EntryType} (h : j.get k = .ok v) (ht : t.Has v) (h' : j.get k = .ok v') :
    t.Has v' := by
  rw [h] at h'
  cases h'
  exact ht

theorem rat_whole {q : Rat} (h : q.den = 1) : q = (q.num : Rat) := (Rat.den_eq_one_iff q).mp h |>.symm

theorem size_typed {v : JV} {n : Nat} (h : v.size = .ok n) : EntryType.size.Has v := by
  cases v with
  | num q =>
    simp only [JV.size] at h
    split at h
    · rename_i hd
      split at h
      · cases h
      · rename_i hn
        refine .inl ⟨q.num.toNat, ?_⟩
        have h0 : ((q.num.toNat : Int) : Rat) = (q.num : Rat) := by rw [Int.toNat_of_nonneg (by omega)]
        congr 1
        rw [rat_whole hd]
        exact_mod_cast h0.symm
    · cases h
  | _ => cases h

theorem whole_typed {v : JV} {n : Int} (h : v.int = .ok n) : EntryType.whole.Has v := by
  cases v with
  | num q =>
    simp only [JV.int] at h
    split at h
    · rename_i hd
      exact .inl ⟨q.num, congrArg JV.num (rat_whole hd)⟩
    · cases h
  | _ => cases h

theorem number_typed {v : JV} {q : Rat} (h : v.number = .ok q) : EntryType.number.Has v := by
  cases v with
  | num q => exact .inl ⟨q, rfl⟩
  | bool b => exact .inr ⟨b, rfl⟩
  | _ => cases h

theorem atLeast_typed {v : JV} {n : Int} (h : v.atLeast = .ok n) : EntryType.number.Has v := by
  unfold JV.atLeast at h
  split at h
  · cases h
  · rename_i hq
    exact number_typed hq

theorem above_typed {v : JV} {n : Int} (h : v.above = .ok n) : EntryType.number.Has v := by
  unfold JV.above at h
  split at h
  · cases h
  · rename_i hq
    exact number_typed hq

theorem string_typed {v : JV} {s : Str} (h : v.string = .ok s) : EntryType.text.Has v := by
  cases v with
  | str s => exact ⟨s, rfl⟩
  | _ => cases h

theorem keyed_typed {v : JV} {s : Str} (h : v.key = .ok s) : EntryType.text.Has v := by
  cases v with
  | str s => exact ⟨s, rfl⟩
  | _ => cases h

theorem assoc_typed {β : Type} {s : Str} {l : List (Str × β)} {b : β} {names : List String}
    (hl : l.map Prod.fst = names.map String.toList) (h : assocGet s l = some b) : (EntryType.name names).Has (.str s) := by
  have hm : s ∈ names.map String.toList := hl ▸ List.mem_map.mpr ⟨_, assocGet_mem h, rfl⟩
  obtain ⟨n, hn, rfl⟩ := List.mem_map.mp hm
  exact ⟨n, hn, rfl⟩

theorem lookup_typed {β : Type} {v : JV} {l : List (Str × β)} {b : β} {names : List String}
    (hl : l.map Prod.fst = names.map String.toList) (h : lookupName l v = .ok b) : (EntryType.name names).Has v := by
  simp only [lookupName, okBind] at h
  obtain ⟨s, hs, h⟩ := h
  obtain ⟨s', rfl⟩ := keyed_typed hs
  cases hs
  split at h
  · rename_i ha
    exact assoc_typed hl ha
  · cases h

theorem kernels_typed {v : JV} {ks : List Kernel} (h : kernelsOf v = .ok ks) : EntryType.kernels.Has v := by
  simp only [kernelsOf, okBind] at h
  obtain ⟨l, hl, h⟩ := h
  cases v with
  | arr l' =>
    cases hl
    refine .inl ⟨l, rfl, ?_⟩
    intro x hx k hk
    obtain ⟨kr, _, h1⟩ := mapM'_read h hx
    simp only [kernelOf, okBind] at h1
    obtain ⟨a, ha, _, ha', b, hb, _, hb', c, hc, _, hc', _⟩ := h1
    simp only [List.mem_cons, List.not_mem_nil, or_false] at hk
    rcases hk with rfl | rfl | rfl
    · exact ⟨a, JV.find_one.mpr ha, size_typed ha'⟩
    · exact ⟨b, JV.find_one.mpr hb, size_typed hb'⟩
    · exact ⟨c, JV.find_one.mpr hc, size_typed hc'⟩
  | _ => cases hl

/-! ### Sections -/

theorem aggregator_typed {c : JV} {a : Aggregator} (h : aggregatorOf c = .ok a) :
    AllTyped c (typedKeys [("aggregator", aggregatorType)]) ∧
    AllTyped c (typedPick (textAt c "aggregator")
      [("rnn", typedUnder "aggregator_config".toList
          (typedKeys [("lstm_cell_size", .size), ("bilstm_layer_count", .whole)])),
       ("cnn", typedUnder "aggregator_config".toList (typedKeys [("cnn_kernels", .kernels)]))]) := by
  simp only [aggregatorOf, okBind] at h
  obtain ⟨v, hv, n, hn, ac, hac, h⟩ := h
  have ht := lookup_text hv hn
  refine ⟨.one (fun _ => has_got hv (lookup_typed rfl hn)), .pick ?_⟩
  intro e he hs
  rw [hs] at ht
  simp only [List.mem_cons, List.not_mem_nil, or_false] at he
  rcases he with rfl | rfl
  · have hx : assocGet "rnn".toList aggNames = some .rnn := by decide
    obtain rfl : n = .rnn := Option.some.inj (ht.symm.trans hx)
    simp only [okBind] at h
    obtain ⟨x, hx, _, hx', y, hy, _, hy', _⟩ := h
    refine .under (fun c' hc' => ?_)
    rw [JV.getD_of_get hc'] at hac
    cases hac
    exact .key (fun _ => has_got hx (size_typed hx')) (.one (fun _ => has_got hy (whole_typed hy')))
  · have hx : assocGet "cnn".toList aggNames = some .cnn := by decide
    obtain rfl : n = .cnn := Option.some.inj (ht.symm.trans hx)
    simp only [okBind] at h
    obtain ⟨x, hx, _, hx', _⟩ := h
    refine .under (fun c' hc' => ?_)
    rw [JV.getD_of_get hc'] at hac
    cases hac
    exact .one (fun _ => has_got hx (kernels_typed hx'))

theorem segmenter_typed {w : Outside} {c : JV} {r : Str → List Str} (h : segmenterOf w c = .ok r) :
    AllTyped c (typedKeys [("segmenter", segmenterType)]) := by
  simp only [segmenterOf, okBind] at h
  obtain ⟨v, hv, sc, _, h⟩ := h
  refine .one (fun _ => has_got hv ?_)
  cases v with
  | str s =>
    by_cases h1 : s = "char".toList
    · exact ⟨"char", by simp, congrArg JV.str h1⟩
    by_cases h2 : s = "bpe".toList
    · exact ⟨"bpe", by simp, congrArg JV.str h2⟩
    by_cases h3 : s = "morfessor".toList
    · exact ⟨"morfessor", by simp, congrArg JV.str h3⟩
    cases sc <;> simp only [h1, h2, h3, if_false, or_self] at h <;> cases h
  | _ => cases h

theorem segment_typed {w : Outside} {n : Str} {c : JV} {p : Provider} (h : subwordProvider w n c = .ok p) :
    AllTyped c (segmentTypes c) := by
  simp only [subwordProvider, okBind] at h
  obtain ⟨b, hb, h⟩ := h
  cases b with
  | true =>
    simp only [if_true, okBind] at h
    obtain ⟨v, hv, _, hv', s, hs, _⟩ := h
    refine .append (segmenter_typed hs) ?_
    rw [JV.find_one.mpr hv]
    exact .one (fun _ => has_got hv (string_typed hv'))
  | false =>
    simp only [Bool.false_eq_true, if_false, okBind] at h
    obtain ⟨v, hv, _, hv', s, hs, _⟩ := h
    refine .append (segmenter_typed hs) ?_
    rw [JV.has_false hb]
    exact .one (fun _ => has_got hv (atLeast_typed hv'))

theorem subword_typed {w : Outside} {n n' : Str} {shapes : Dict Str Shape} {c : JV} {p : Provider}
    {r : Trained SubwordCfg} (h : subwordProvider w n c = .ok p) (h' : subwordCfgOf shapes n' c = .ok r) :
    AllTyped c (subwordTypes c) := by
  have hseg := segment_typed h
  simp only [subwordCfgOf, okBind] at h'
  obtain ⟨b, hb, _, _, h'⟩ := h'
  cases b with
  | true =>
    simp only [if_true, okBind] at h'
    obtain ⟨_, _, t, ht, a, ha, _⟩ := h'
    obtain ⟨hg, hag⟩ := aggregator_typed ha
    refine .append (.append (.append hseg hg) ?_) hag
    rw [if_pos (JV.has_true hb ht)]
    exact .nil _
  | false =>
    simp only [Bool.false_eq_true, if_false, okBind] at h'
    obtain ⟨t, ht, _, ht', a, ha, _⟩ := h'
    obtain ⟨hg, hag⟩ := aggregator_typed ha
    refine .append (.append (.append hseg hg) ?_) hag
    rw [JV.has_false hb]
    exact .one (fun _ => has_got ht (size_typed ht'))

theorem features_typed {w : Outside} {shapes : Dict Str Shape} {fc : JV} {ps : List Provider} {r : SharedRead}
    (h : sharedProviders w fc = .ok ps) (h' : sharedCfgOf shapes fc = .ok r) : AllTyped fc (featuresTypes fc) := by
  simp only [sharedProviders, okBind] at h
  obtain ⟨a, ha, b, hb, x, hx, y, hy, z, hz, _⟩ := h
  simp only [sharedCfgOf, okBind] at h'
  obtain ⟨a', ha', b', hb', x', hx', y', hy', z', hz', _⟩ := h'
  refine .append (.append (.append (.append (.under ?_) (.under ?_)) (.section ?_)) (.section ?_)) (.section ?_)
  · intro c hc
    obtain ⟨_, h1, _⟩ := optPart_of ha hc
    obtain ⟨_, h2, _⟩ := optPart_of ha' hc
    simp only [wordProvider, okBind] at h1
    simp only [wordCfgOf, okBind] at h2
    obtain ⟨_, k1, _, k1', _⟩ := h1
    obtain ⟨_, _, _, _, b, k3, h2⟩ := h2
    refine .key (fun _ => has_got k1 (string_typed k1')) (.one (fun v hv => ?_))
    rw [JV.has_of_get hv] at k3
    cases k3
    simp only [if_true, okBind] at h2
    obtain ⟨_, k4, _, k4', _⟩ := h2
    exact has_got k4 (size_typed k4') hv
  · intro c hc
    obtain ⟨_, h1, _⟩ := optPart_of hb hc
    obtain ⟨_, h2, _⟩ := optPart_of hb' hc
    simp only [trainedProvider, okBind] at h1
    simp only [trainedCfgOf, okBind] at h2
    obtain ⟨_, k1, _, k1', _⟩ := h1
    obtain ⟨_, k3, _, k3', _⟩ := h2
    exact .key (fun _ => has_got k1 (atLeast_typed k1')) (.one (fun _ => has_got k3 (size_typed k3')))
  · intro c hc
    obtain ⟨_, h1, _⟩ := optPart_of hx hc
    obtain ⟨_, h2, _⟩ := optPart_of hx' hc
    exact subword_typed h1 h2
  · intro c hc
    obtain ⟨_, h1, _⟩ := optPart_of hy hc
    obtain ⟨_, h2, _⟩ := optPart_of hy' hc
    exact subword_typed h1 h2
  · intro c hc
    obtain ⟨_, h1, _⟩ := optPart_of hz hc
    obtain ⟨_, h2, _⟩ := optPart_of hz' hc
    exact subword_typed h1 h2

theorem layers_typed {c v v' : JV} {n : Int} (h : c.getD "bilstm_layer_count".toList (.num 1) = .ok v) (h' : v.int = .ok n)
    (hn : 0 < n) (hv : c.get "bilstm_layer_count".toList = .ok v') : EntryType.positive.Has v' := by
  rw [JV.getD_of_get hv] at h
  cases h
  cases v with
  | num q =>
    simp only [JV.int] at h'
    split at h'
    · rename_i hd
      cases h'
      exact .inl ⟨q.num, hn, congrArg JV.num (rat_whole hd)⟩
    · cases h'
  | _ => cases h'

theorem skip_typed {c v v' : JV} {a b : Nat} (h : c.getD "skip_connection".toList .null = .ok v)
    (hk : SkipOk a b (skipOf v)) (hv : c.get "skip_connection".toList = .ok v') : skipType.Has v' := by
  rw [JV.getD_of_get hv] at h
  cases h
  cases v with
  | null => exact .inl rfl
  | str s =>
    rcases hk s rfl with rfl | ⟨rfl, _⟩
    · exact .inr ⟨"concat", by simp, rfl⟩
    · exact .inr ⟨"sum", by simp, rfl⟩
  | _ => rcases hk [] rfl with h | ⟨h, _⟩ <;> exact absurd h (by decide)

theorem kind_typed {s c v : JV} {n : SharedName} {k : SharedKind} {f : SharedCfg} (hs : s.get "builder".toList = .ok v)
    (hn : lookupName sharedNames v = .ok n) (h : sharedKindOf c n = .ok k) (hk : k.Ok f) :
    AllTyped c (typedPick (textAt s "builder")
      [("BiLSTM", typedKeys [("lstm_cell_size", .size), ("bilstm_layer_count", .positive), ("skip_connection", skipType)]),
       ("BiLSTM_CNN", typedKeys [("lstm_cell_size", .size), ("bilstm_layer_count", .positive),
          ("skip_connection", skipType), ("cnn_kernels", .kernels)]),
       ("Dilated_CNN", typedKeys [("cnn_kernels", .kernels), ("skip_connection", skipType)])]) := by
  have ht := lookup_text hs hn
  refine .pick ?_
  intro e he hs
  rw [hs] at ht
  simp only [List.mem_cons, List.not_mem_nil, or_false] at he
  rcases he with rfl | rfl | rfl
  · have hx : assocGet "BiLSTM".toList sharedNames = some .bilstm := by decide
    obtain rfl : n = .bilstm := Option.some.inj (ht.symm.trans hx)
    simp only [sharedKindOf, okBind, okPure] at h
    obtain ⟨_, k1, _, k1', _, k2, _, k2', _, k3, rfl⟩ := h
    exact .key (fun _ => has_got k1 (size_typed k1')) (.key (fun _ => layers_typed k2 k2' hk.1)
      (.one (fun _ => skip_typed k3 hk.2)))
  · have hx : assocGet "BiLSTM_CNN".toList sharedNames = some .bilstmCnn := by decide
    obtain rfl : n = .bilstmCnn := Option.some.inj (ht.symm.trans hx)
    simp only [sharedKindOf, okBind, okPure] at h
    obtain ⟨_, k1, _, k1', _, k2, _, k2', _, ks, _, k3, _, k3', rfl⟩ := h
    exact .key (fun _ => has_got k1 (size_typed k1')) (.key (fun _ => layers_typed k2 k2' hk.1)
      (.key (fun _ => skip_typed ks hk.2.1) (.one (fun _ => has_got k3 (kernels_typed k3')))))
  · have hx : assocGet "Dilated_CNN".toList sharedNames = some .dilatedCnn := by decide
    obtain rfl : n = .dilatedCnn := Option.some.inj (ht.symm.trans hx)
    simp only [sharedKindOf, okBind] at h
    obtain ⟨_, hsk, ks, k1, h⟩ := h
    have hne : ks ≠ .null := by
      rintro rfl
      simp only [okPure] at h
      subst h
      exact hk
    split at h
    · exact absurd rfl hne
    · simp only [okBind, okPure] at h
      obtain ⟨_, h, rfl⟩ := h
      exact .key (fun _ => has_got (JV.getD_null k1 hne) (kernels_typed h)) (.one (fun _ => skip_typed hsk hk.2))

theorem weight_typed {c : JV} {r : Option (List (Str × Rat))} (h : weightsOf c = .ok r) :
    AllTyped c (typedUnder "loss_weights".toList (typedKeys [("LEMMA", .number)])) := by
  refine .under (fun ws hws => .one (fun v hv => ?_))
  simp only [weightsOf, okBind] at h
  obtain ⟨x, hx, h⟩ := h
  rw [JV.getD_of_get hws] at hx
  cases hx
  obtain ⟨l, rfl, hl⟩ := JV.get_ok.mp hv
  simp only [okBind] at h
  obtain ⟨y, hy, _⟩ := h
  obtain ⟨_, _, h1⟩ := mapM'_read hy (assocGet_mem hl)
  simp only [weightOf, okBind] at h1
  obtain ⟨_, h1, _⟩ := h1
  exact number_typed h1

theorem dense_typed {shapes : Dict Str Shape} {c : JV} {task : Task} {t : TaskRead}
    (h : denseRead shapes c task = .ok t) :
    AllTyped c (typedKeys [("shared_name", .text)]) ∧ AllTyped c (typedKeys [("dense_size", .size)]) := by
  simp only [denseRead, okBind, okPure] at h
  obtain ⟨_, k1, _, k1', _, k2, _, k2', _⟩ := h
  exact ⟨.one (fun _ => has_got k1 (keyed_typed k1')), .one (fun _ => has_got k2 (size_typed k2'))⟩

theorem splitting_typed {v : JV} {s : Splitting} (h : splittingOf v = .ok s) : splittingType.Has v := by
  cases v with
  | str s =>
    simp only [splittingOf] at h
    split at h
    · rename_i ha
      exact assoc_typed rfl ha
    · cases h
  | _ => cases h

theorem task_typed {w : Outside} {shapes : Dict Str Shape} {t : JV} {ps : List Provider} {r : TaskRead}
    (hp : taskProviders w t = .ok ps) (hr : taskRead shapes t = .ok r) : AllTyped t (taskTypes t) := by
  simp only [taskProviders, okBind] at hp
  obtain ⟨v, hv, n, hn, c, hcc, fc, hfc, hp⟩ := hp
  simp only [taskRead, okBind, hv, hn, hcc, hfc, Except.ok.injEq, exists_eq_left'] at hr
  have ht := lookup_text hv hn
  have hcfg : ∀ {l}, AllTyped c l → AllTyped t (typedUnder "config".toList l) := by
    intro l hl
    refine .under (fun c' hc' => ?_)
    rw [hcc] at hc'
    cases hc'
    exact hl
  have hfeat : ∀ {c'}, t.get "features_config".toList = .ok c' → c' = fc := by
    intro c' hc'
    rw [JV.getD_of_get hc'] at hfc
    cases hfc
    rfl
  refine .append (.append (.append (.one (fun _ => has_got hv (lookup_typed rfl hn))) (hcfg ?_)) (hcfg (.pick ?_))) (.pick ?_)
  · cases n with
    | posDense => exact (dense_typed hr).1
    | lemmaDense => exact (dense_typed hr).1
    | lemmaSuffix => exact (dense_typed hr).1
    | lemmaCombo =>
      simp only [taskReadOf, comboRead, okBind] at hr
      obtain ⟨_, k1, _, k1', _⟩ := hr
      exact .one (fun _ => has_got k1 (keyed_typed k1'))
    | lemmaBinary =>
      simp only [taskReadOf, binaryRead, okBind] at hr
      obtain ⟨_, k1, _, k1', _⟩ := hr
      exact .one (fun _ => has_got k1 (keyed_typed k1'))
  · intro e he hs
    rw [hs] at ht
    simp only [List.mem_cons, List.not_mem_nil, or_false] at he
    rcases he with rfl | rfl | rfl | rfl
    · have hx : assocGet "pos_dense".toList taskNames = some .posDense := by decide
      obtain rfl : n = .posDense := Option.some.inj (ht.symm.trans hx)
      simp only [taskProvidersOf, okBind] at hp
      obtain ⟨_, k, _, k', _⟩ := hp
      have h2 : AllTyped c (typedKeys [("splitting", splittingType)]) := .one (fun _ => has_got k (splitting_typed k'))
      exact AllTyped.append (dense_typed hr).2 h2
    · have hx : assocGet "lemma_dense".toList taskNames = some .lemmaDense := by decide
      obtain rfl : n = .lemmaDense := Option.some.inj (ht.symm.trans hx)
      exact (dense_typed hr).2
    · have hx : assocGet "lemma_suffix".toList taskNames = some .lemmaSuffix := by decide
      obtain rfl : n = .lemmaSuffix := Option.some.inj (ht.symm.trans hx)
      exact (dense_typed hr).2
    · have hx : assocGet "lemma_combo".toList taskNames = some .lemmaCombo := by decide
      obtain rfl : n = .lemmaCombo := Option.some.inj (ht.symm.trans hx)
      simp only [taskReadOf, comboRead, okBind] at hr
      obtain ⟨_, _, _, _, _, _, _, _, _, _, _, k2, _, k2', _, k3, _, k3', _, k4, _⟩ := hr
      exact .append (.key (fun _ => has_got k2 (size_typed k2')) (.one (fun _ => has_got k3 (kernels_typed k3'))))
        (weight_typed k4)
  · intro e he hs
    rw [hs] at ht
    simp only [List.mem_cons, List.not_mem_nil, or_false] at he
    rcases he with rfl | rfl
    · have hx : assocGet "lemma_suffix".toList taskNames = some .lemmaSuffix := by decide
      obtain rfl : n = .lemmaSuffix := Option.some.inj (ht.symm.trans hx)
      simp only [taskProvidersOf, rulesProvider, okBind] at hp
      obtain ⟨_, k1, _, k2, _, k2', _⟩ := hp
      refine .under (fun fc' hfc' => .under (fun rc hrc => .one (fun v hv => ?_)))
      rw [hfeat hfc', k1] at hrc
      cases hrc
      exact has_got k2 (above_typed k2') hv
    · have hx : assocGet "lemma_combo".toList taskNames = some .lemmaCombo := by decide
      obtain rfl : n = .lemmaCombo := Option.some.inj (ht.symm.trans hx)
      simp only [taskProvidersOf, okBind] at hp
      obtain ⟨_, ko, a, ha, _, ki, b, hb, _⟩ := hp
      simp only [lemmaCharsProvider, okBind] at ha
      obtain ⟨_, o1, _, o1', _, o2, _, o2', _, hs', _⟩ := ha
      simp only [taskReadOf, comboRead, okBind] at hr
      obtain ⟨_, _, _, _, _, ki', _, ke, _, ke', _⟩ := hr
      refine .section (fun fc' hfc' => ?_)
      rw [hfeat hfc']
      refine .append (.under (fun oc hoc => ?_)) (.section (fun ic hic => ?_))
      · rw [ko] at hoc
        cases hoc
        refine .key (fun _ => has_got o1 (atLeast_typed o1')) (.key (fun _ => has_got o2 (size_typed o2')) ?_)
        exact segmenter_typed hs'
      · rw [hic] at ki ki'
        cases ki
        cases ki'
        exact .append (segment_typed hb) (.one (fun _ => has_got ke (size_typed ke')))

end Verif
