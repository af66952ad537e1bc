import Verif.Proofs.WordsOnly
import Verif.Proofs.Pipeline2
import Verif.Props.Datamodel4
import Verif.Spec.Tagger

/-! # Proofs about what the predictions of a tagger depend on -/

namespace Verif

theorem OutRel.outcome {α β : Type} {S : α → β → Prop} {r : Res α} {r' : Res β} (h : OutRel S r r') :
    SameOutcome S r r' := h.elim

section
variable {F : Type} {lower : Str → Str} {float : Str → Res F} {zero : F} {tok tok' : Nat → TextToken}
  {dataset : List Document} {seen : Seen}

/-- Whether labels can be made does not depend on what they will be extracted from. -/
theorem labelLeaf_rel (s : LeafSpec) :
    OutRel (BuiltRel (fun _ _ _ => False) 0) (s.build lower float zero tok dataset)
      (s.build lower float zero tok' dataset) := by
  cases s <;> simp only [LeafSpec.build] <;> (repeat' split) <;>
    first | exact .error _ | exact .ok ⟨rfl, rfl, fun _ _ h => h.elim⟩

theorem BuiltRel.anyLevel {x x' : BuiltX F} {n : Nat} (h : BuiltRel (fun _ _ _ => False) 0 x x') :
    BuiltRel (fun _ _ _ => False) n x x' := ⟨h.shapes, h.initial, fun _ _ h => h.elim⟩

theorem labels_rel {sp sp' : Sparsify} {ps : List Provider} {l : Builder}
    (hl : mergeBuilders (ps.zipIdx.map (fun p => Provider.label p.2 p.1)) = .ok l) :
    OutRel (BuiltRel (fun _ _ _ => False) 0)
      (l.build (buildSpec lower float zero tok seen Provider.labelSpec ps) sp)
      (l.build (buildSpec lower float zero tok' seen Provider.labelSpec ps) sp') := by
  refine build_rel (fun _ _ _ h => h.elim) (fun _ _ _ _ _ h => h.elim) l 0 ?_
  intro ws ty id hm
  obtain ⟨p, s, hp, hps, _, _⟩ := merged_leaves label_mk hl hm
  have hb : ∀ tok : Nat → TextToken, buildSpec lower float zero tok seen Provider.labelSpec ps id =
      s.build lower float zero tok (seen s) := by
    intro tok
    simp [buildSpec, hp, hps]
  rw [hb, hb]
  exact (labelLeaf_rel s).imp (fun _ _ h => h.anyLevel)

theorem assemble_rel {ps : List Provider} {hs hs' : List Nat} {sp sp' : Sparsify}
    (h : List.Forall₂ (fun k k' => (tok k).1 = (tok' k').1) hs hs')
    (hsp : ∀ n o o' k v, SameText tok tok' hs hs' n o o' → sp o k v = sp' o' k v) :
    OutRel (fun r r' : Assembled F => ∀ o o', SameText tok tok' hs hs' 0 o o' → r.features o = r'.features o')
      (assemble lower float zero tok sp seen ps) (assemble lower float zero tok' sp' seen ps) := by
  unfold assemble
  cases hm : mergedProviders (fun p => Provider.feature p.2 p.1) (fun p => Provider.label p.2 p.1) false
      ps.zipIdx with
  | error e => exact .error e
  | ok fl =>
    obtain ⟨f, l⟩ := fl
    have hfl : mergeBuilders (ps.zipIdx.map (fun p => Provider.feature p.2 p.1)) = .ok f ∧
        mergeBuilders (ps.zipIdx.map (fun p => Provider.label p.2 p.1)) = .ok l := by
      unfold mergedProviders providerBuilders at hm
      simp only [Bool.false_eq_true, if_false] at hm
      cases h1 : mergeBuilders (ps.zipIdx.map (fun p => Provider.feature p.2 p.1)) with
      | error e => simp [h1] at hm
      | ok f1 =>
        cases h2 : mergeBuilders (ps.zipIdx.map (fun p => Provider.label p.2 p.1)) with
        | error e => simp [h1, h2] at hm
        | ok l1 => simpa [h1, h2] using hm
    simp only
    rcases (features_rel (lower := lower) (float := float) (zero := zero) (seen := seen) h hsp hfl.1).elim with
      ⟨x, x', e1, e2, hx⟩ | ⟨e, e1, e2⟩
    · rcases (labels_rel (lower := lower) (float := float) (zero := zero) (seen := seen) (tok := tok)
        (tok' := tok') (sp := sp) (sp' := sp') hfl.2).elim with ⟨y, y', e3, e4, hy⟩ | ⟨e, e3, e4⟩
      · rw [e1, e2, e3, e4]
        exact .ok hx.extract
      · rw [e1, e2, e3, e4]
        exact .error e
    · rw [e1, e2]
      exact .error e

end

/-! ### Sentences with the same words -/

theorem textTokens_get (d : Document) (j : Nat) :
    d.textTokens[j]? = (d.tokens[j]?).map (fun t => (tokText d.text t, t)) := by
  simp [Document.textTokens]

theorem SameWords.docTok {d d' : Document} {s s' : Sentence} (h : SameWords d s d' s') (other : TextToken) :
    List.Forall₂ (fun k k' => (docTok other d k).1 = (docTok other d' k').1)
      (List.range' s.start (s.stop - s.start)) (List.range' s'.start (s'.stop - s'.start)) := by
  rw [List.forall₂_iff_get]
  refine ⟨by simp [h.length], ?_⟩
  intro i hi hi'
  have hi2 : i < s.stop - s.start := by simpa using hi
  have := h.words i hi2
  simp only [List.get_eq_getElem, List.getElem_range', Nat.one_mul, Verif.docTok, List.getD_eq_getElem?_getD, textTokens_get]
  cases h1 : d.tokens[s.start + i]? with
  | none =>
    cases h2 : d'.tokens[s'.start + i]? with
    | none => rfl
    | some t' => rw [h1, h2] at this; cases this
  | some t =>
    cases h2 : d'.tokens[s'.start + i]? with
    | none => rw [h1, h2] at this; cases this
    | some t' =>
      rw [h1, h2] at this
      simpa using this

theorem slice_get {α : Type} (l : List α) (a b k : Nat) :
    (slice l a b)[k]? = if k < b - a then l[a + k]? else none := by
  simp only [slice, List.getElem?_take, List.getElem?_drop]

theorem forall₂_of_get {α β : Type} {R : α → β → Prop} {l : List α} {l' : List β}
    (h : ∀ k : Nat, Option.Rel R l[k]? l'[k]?) : List.Forall₂ R l l' := by
  induction l generalizing l' with
  | nil =>
    cases l' with
    | nil => exact .nil
    | cons b l' => exact absurd (h 0) (by simp)
  | cons a l ih =>
    cases l' with
    | nil => exact absurd (h 0) (by simp)
    | cons b l' =>
      refine .cons ?_ (ih (fun k => by simpa using h (k + 1)))
      have := h 0
      simp only [List.getElem?_cons_zero] at this
      cases this with
      | some h => exact h

theorem get_of_forall₂ {α β : Type} {R : α → β → Prop} {l : List α} {l' : List β}
    (h : List.Forall₂ R l l') : ∀ k : Nat, Option.Rel R l[k]? l'[k]? := by
  induction h with
  | nil => intro k; simp only [List.getElem?_nil]; exact .none
  | cons h1 _ ih =>
    intro k
    cases k with
    | zero => simp only [List.getElem?_cons_zero]; exact .some h1
    | succ k => simpa using ih k

theorem SameWords.slice {d d' : Document} {s s' : Sentence} (h : SameWords d s d' s') :
    List.Forall₂ (fun t t' : TextToken => t.1 = t'.1) (slice d.textTokens s.start s.stop)
      (slice d'.textTokens s'.start s'.stop) := by
  apply forall₂_of_get
  intro k
  rw [slice_get, slice_get, ← h.length]
  split
  · next hk =>
    have := h.words k hk
    rw [textTokens_get, textTokens_get]
    cases h1 : d.tokens[s.start + k]? with
    | none =>
      cases h2 : d'.tokens[s'.start + k]? with
      | none => exact .none
      | some t' => rw [h1, h2] at this; cases this
    | some t =>
      cases h2 : d'.tokens[s'.start + k]? with
      | none => rw [h1, h2] at this; cases this
      | some t' =>
        rw [h1, h2] at this
        exact .some (by simpa using this)
  · exact .none

/-! ### Interpretation -/

/-- The same text; the same tag, if `P`, and the same lemma, if `L`. -/
structure SameUpTo (P L : Prop) (t t' : TextToken) : Prop where
  text : t.1 = t'.1
  pos : P → t.2.pos = t'.2.pos
  lemma' : L → t.2.lemma' = t'.2.lemma'

theorem apply_rel {lower : Str → Str} {P L : Prop} {t t' : TextToken} (h : SameUpTo P L t t') (w : WordInterp)
    (ids : List Int) :
    OutRel (fun u u' : Token => (P ∨ w.tagsPos = true → u.pos = u'.pos) ∧
      (L ∨ w.tagsPos = false → u.lemma' = u'.lemma')) (w.apply lower t ids) (w.apply lower t' ids) := by
  cases w with
  | pos n table =>
    simp only [WordInterp.apply, PosTable.interpret, WordInterp.tagsPos, Token.withMorphology_ok]
    cases table.decode ids with
    | error e => exact .error e
    | ok pos => exact .ok ⟨fun _ => rfl, fun hl => h.lemma' (by simpa using hl)⟩
  | lemmaDict n table =>
    simp only [WordInterp.apply, interpretLemma, WordInterp.tagsPos, Token.withMorphology_ok]
    cases pyGet ids 0 with
    | error e => exact .error e
    | ok i =>
      simp only
      cases pyGet table i with
      | error e => exact .error e
      | ok l => exact .ok ⟨fun hp => h.pos (by simpa using hp), fun _ => rfl⟩
  | lemmaRule n table =>
    simp only [WordInterp.apply, interpretRule, WordInterp.tagsPos, Token.withMorphology_ok, h.text]
    cases pyGet ids 0 with
    | error e => exact .error e
    | ok i =>
      simp only
      cases pyGet table i with
      | error e => exact .error e
      | ok r =>
        simp only
        split
        · cases r.transform (lower t'.1) with
          | error e => exact .error e
          | ok l => exact .ok ⟨fun hp => h.pos (by simpa using hp), fun _ => rfl⟩
        · exact .ok ⟨fun hp => h.pos (by simpa using hp), fun _ => rfl⟩
  | lemmaChars n table =>
    simp only [WordInterp.apply, interpretChars, WordInterp.tagsPos, Token.withMorphology_ok]
    cases decodeChars table ids with
    | error e => exact .error e
    | ok l => exact .ok ⟨fun hp => h.pos (by simpa using hp), fun _ => rfl⟩

theorem interpret_rel {lower : Str → Str} {P L : Prop} {t t' : TextToken} (h : SameUpTo P L t t') (w : WordInterp)
    (v : Features) :
    OutRel (SameUpTo (P ∨ w.tagsPos = true) (L ∨ w.tagsPos = false)) (w.interpret lower t v)
      (w.interpret lower t' v) := by
  unfold WordInterp.interpret
  cases v.getItem w.name with
  | error e => exact .error e
  | ok x =>
    simp only
    cases featInts x with
    | error e => exact .error e
    | ok ids =>
      simp only
      rcases (apply_rel (lower := lower) h w ids).elim with ⟨u, u', e1, e2, hu⟩ | ⟨e, e1, e2⟩
      · rw [e1, e2]
        exact .ok ⟨h.text, hu.1, hu.2⟩
      · rw [e1, e2]
        exact .error e

theorem composite_rel {lower : Str → Str} (ws : List WordInterp) {P L : Prop} {t t' : TextToken}
    (h : SameUpTo P L t t') (v : Features) :
    OutRel (SameUpTo (P ∨ ∃ w ∈ ws, w.tagsPos = true) (L ∨ ∃ w ∈ ws, w.tagsPos = false))
      (compositeInterpret (ws.map (fun i => i.interpret lower)) t v)
      (compositeInterpret (ws.map (fun i => i.interpret lower)) t' v) := by
  induction ws generalizing P L t t' with
  | nil => exact .ok ⟨h.text, fun hp => h.pos (by simpa using hp), fun hl => h.lemma' (by simpa using hl)⟩
  | cons w ws ih =>
    simp only [compositeInterpret, List.map_cons, forM'] at ih ⊢
    rcases (interpret_rel (lower := lower) h w v).elim with ⟨u, u', e1, e2, hu⟩ | ⟨e, e1, e2⟩
    · rw [e1, e2]
      refine (ih hu).imp ?_
      rintro a b ⟨h1, h2, h3⟩
      refine ⟨h1, fun hp => h2 ?_, fun hl => h3 ?_⟩
      · rcases hp with hp | ⟨w', hw, hw'⟩
        · exact .inl (.inl hp)
        · rcases List.mem_cons.1 hw with rfl | hw
          · exact .inl (.inr hw')
          · exact .inr ⟨w', hw, hw'⟩
      · rcases hl with hp | ⟨w', hw, hw'⟩
        · exact .inl (.inl hp)
        · rcases List.mem_cons.1 hw with rfl | hw
          · exact .inl (.inr hw')
          · exact .inr ⟨w', hw, hw'⟩
    · rw [e1, e2]
      exact .error e

theorem iterInterpret_rel {α β : Type} {S : α → α → Prop} {T : β → β → Prop} {f : α → Features → Res β}
    (hf : ∀ a b v, S a b → OutRel T (f a v) (f b v)) {l l' : List α} (h : List.Forall₂ S l l')
    (v : Dict Str (List Feat)) : OutRel (List.Forall₂ T) (iterInterpret f l v) (iterInterpret f l' v) := by
  unfold iterInterpret
  apply mapM'_outRel
  generalize converted v = c
  induction h generalizing c with
  | nil => exact .nil
  | cons h1 _ ih =>
    cases c with
    | nil => exact .nil
    | cons x c => exact .cons (hf _ _ _ h1) (ih c)

theorem tagSentence_rel {lower : Str → Str} (ws : List WordInterp) {ts ts' : List TextToken}
    (h : List.Forall₂ (fun t t' : TextToken => t.1 = t'.1) ts ts') (pred : Dict Str (List Feat)) :
    OutRel (List.Forall₂ (SameUpTo (∃ w ∈ ws, w.tagsPos = true) (∃ w ∈ ws, w.tagsPos = false)))
      (tagSentence lower ws ts pred) (tagSentence lower ws ts' pred) := by
  unfold tagSentence
  have h1 : ∀ a b v, List.Forall₂ (fun t t' : TextToken => t.1 = t'.1) a b →
      OutRel (List.Forall₂ (SameUpTo (∃ w ∈ ws, w.tagsPos = true) (∃ w ∈ ws, w.tagsPos = false)))
        (interpretWords lower ws a v) (interpretWords lower ws b v) := by
    intro a b v hab
    unfold interpretWords
    cases asSequences v with
    | error e => exact .error e
    | ok s =>
      refine iterInterpret_rel ?_ hab s
      intro t t' v ht
      have := composite_rel (lower := lower) ws (P := False) (L := False) (t := t) (t' := t')
        ⟨ht, fun h => h.elim, fun h => h.elim⟩ v
      simpa only [false_or] using this
  rcases (iterInterpret_rel h1 (List.Forall₂.cons h .nil) pred).elim with ⟨x, x', e1, e2, hx⟩ | ⟨e, e1, e2⟩
  · rw [e1, e2]
    refine .ok ?_
    clear e1 e2
    induction hx with
    | nil => exact .nil
    | cons h1 _ ih => exact List.rel_append h1 ih
  · rw [e1, e2]
    exact .error e

theorem interpretSentence_rel {lower : Str → Str} (ws : List WordInterp) {ts ts' : List TextToken}
    (h : List.Forall₂ (fun t t' : TextToken => t.1 = t'.1) ts ts') (pred : Features) :
    OutRel (List.Forall₂ (SameUpTo (∃ w ∈ ws, w.tagsPos = true) (∃ w ∈ ws, w.tagsPos = false)))
      (interpretSentence lower (batchInterp ws) ts pred) (interpretSentence lower (batchInterp ws) ts' pred) := by
  by_cases hne : ws = []
  · subst hne
    simp only [batchInterp, if_true, interpretSentence, Interp.run]
    have := fun ts => chainTokens_seq [ts]
    simp only [List.map_cons, List.map_nil, List.flatten_cons, List.flatten_nil, List.append_nil] at this
    rw [this, this]
    exact .ok (h.imp (fun a b hab => ⟨hab, by simp, by simp⟩))
  · simp only [batchInterp, if_neg hne]
    rw [interpretSentence_eq, interpretSentence_eq]
    cases asSequences pred with
    | error e => exact .error e
    | ok P => exact tagSentence_rel ws h P

theorem labelInterps_tags {lower : Str → Str} {seen : Seen} {ps : List Provider} {ws : List WordInterp}
    (h : LabelInterps lower seen ps ws) : (∃ p ∈ ps, p.tags) → ∃ w ∈ ws, w.tagsPos = true := by
  obtain ⟨ss, h1, h2⟩ := h
  rintro ⟨p, hp, ht⟩
  cases p with
  | posDict n s =>
    have : LeafSpec.posDict n s ∈ ss := h1.mem_iff.2 (List.mem_filterMap.2 ⟨_, hp, rfl⟩)
    obtain ⟨w, hw, he⟩ := forall₂_mem_left h2 this
    refine ⟨w, hw, ?_⟩
    simp only [LeafSpec.interp] at he
    split at he
    · cases he
    · simp only [Except.ok.injEq, Interp.word.injEq] at he
      rw [← he]; rfl
  | _ => exact ht.elim

theorem labelInterps_lemmas {lower : Str → Str} {seen : Seen} {ps : List Provider} {ws : List WordInterp}
    (h : LabelInterps lower seen ps ws) : (∃ p ∈ ps, p.lemmas) → ∃ w ∈ ws, w.tagsPos = false := by
  obtain ⟨ss, h1, h2⟩ := h
  rintro ⟨p, hp, ht⟩
  cases p with
  | lemmaDict n =>
    have : LeafSpec.lemmaDict n ∈ ss := h1.mem_iff.2 (List.mem_filterMap.2 ⟨_, hp, rfl⟩)
    obtain ⟨w, hw, he⟩ := forall₂_mem_left h2 this
    refine ⟨w, hw, ?_⟩
    simp only [LeafSpec.interp] at he
    split at he
    · cases he
    · simp only [Except.ok.injEq, Interp.word.injEq] at he
      rw [← he]; rfl
  | lemmaRules f n t =>
    have : LeafSpec.suffix n t ∈ ss := h1.mem_iff.2 (List.mem_filterMap.2 ⟨_, hp, rfl⟩)
    obtain ⟨w, hw, he⟩ := forall₂_mem_left h2 this
    refine ⟨w, hw, ?_⟩
    simp only [LeafSpec.interp] at he
    split at he
    · cases he
    · simp only [Except.ok.injEq, Interp.word.injEq] at he
      rw [← he]; rfl
  | lemmaChars n t m sg =>
    have : LeafSpec.lemmaChars n t m sg ∈ ss := h1.mem_iff.2 (List.mem_filterMap.2 ⟨_, hp, rfl⟩)
    obtain ⟨w, hw, he⟩ := forall₂_mem_left h2 this
    refine ⟨w, hw, ?_⟩
    simp only [LeafSpec.interp] at he
    split at he
    · cases he
    · simp only [Except.ok.injEq, Interp.word.injEq] at he
      rw [← he]; rfl
  | _ => exact ht.elim

/-! ### Documents -/

/-- What `fromDocument` makes of predictions for (the beginnings of) the sentences. -/
theorem fromDocument_of_parts {d : Document} (hb : Built d) {tss : List (List TextToken)}
    (hp : List.Forall₂ PartOf (d.sentences.map (fun s => slice d.textTokens s.start s.stop)) tss) :
    (tss.flatten.length = d.tokens.length ∧ ∃ e, d.fromDocument (tss.flatten.map Prod.snd) = .ok e ∧
      List.Forall₂ (fun (u : TextToken) (c : Token) => c.pos = u.2.pos ∧ c.lemma' = u.2.lemma') tss.flatten e.tokens) ∨
    (tss.flatten.length ≠ d.tokens.length ∧ tss.flatten = [] ∧
      d.fromDocument (tss.flatten.map Prod.snd) = .ok ⟨d.text, [], []⟩) ∨
    (tss.flatten.length ≠ d.tokens.length ∧ tss.flatten ≠ [] ∧
      d.fromDocument (tss.flatten.map Prod.snd) = .error .value) := by
  have hd := hb.docOk
  have hp := partOf_flatten hp
  rw [textTokens_flatten hd] at hp
  obtain ⟨hle, heq⟩ := hp
  have hl : d.textTokens.length = d.tokens.length := by simp [Document.textTokens]
  by_cases hlen : tss.flatten.length = d.tokens.length
  · left
    refine ⟨hlen, ?_⟩
    have h2 : List.Forall₂ (fun a b : Token => ∃ p l, b = { a with pos := p, lemma' := l }) d.tokens
        (tss.flatten.map Prod.snd) := by
      have h3 := heq (by omega)
      rw [List.forall₂_map_right_iff]
      unfold Document.textTokens at h3
      rw [List.forall₂_map_left_iff] at h3
      exact h3.imp (fun a b hab => hab.2)
    obtain ⟨d2, e1, _, e3⟩ := retagged_of hd h2
    refine ⟨d2, e1, ?_⟩
    rw [List.forall₂_map_left_iff] at e3
    exact e3
  · right
    by_cases hne : tss.flatten = []
    · left
      refine ⟨hlen, hne, ?_⟩
      rw [hne, List.map_nil, C10_empty_list_drops_everything]
    · right
      refine ⟨hlen, hne, ?_⟩
      cases h : d.fromDocument (tss.flatten.map Prod.snd) with
      | error e =>
        rcases C10_errors hb h with rfl | ⟨_, h0, _⟩
        · rfl
        · rw [h0] at hl
          simp only [List.length_nil] at hl
          exact absurd (List.length_eq_zero_iff.1 (by omega)) hne
      | ok e =>
        obtain ⟨_, _, hsp, l, hperm, hl2⟩ := C10_from_document_structure hb (by simpa using hne) h
        have e1 := hsp.length_eq
        have e2 := hl2.length_eq
        have e3 := hperm.length_eq
        simp only [List.length_map] at e3
        omega

theorem predictAndInterpret_part {lower : Str → Str} {ws : List WordInterp}
    {predict : Document → Sentence → Res Features} {d : Document} {s : Sentence} {ts : List TextToken}
    (h : predictAndInterpret lower (batchInterp ws) predict d s = .ok ts) :
    PartOf (slice d.textTokens s.start s.stop) ts := by
  unfold predictAndInterpret at h
  cases hp : predict d s with
  | error e => rw [hp] at h; cases h
  | ok v =>
    rw [hp] at h
    simp only at h
    by_cases hne : ws = []
    · subst hne
      simp only [batchInterp, if_true, interpretSentence, Interp.run] at h
      have := chainTokens_seq [slice d.textTokens s.start s.stop]
      simp only [List.map_cons, List.map_nil, List.flatten_cons, List.flatten_nil, List.append_nil] at this
      rw [this] at h
      injection h with h
      subst h
      refine ⟨Nat.le_refl _, ?_⟩
      rw [List.take_length]
      exact List.forall₂_same.2 (fun t _ => ⟨rfl, _, _, rfl⟩)
    · simp only [batchInterp, if_neg hne, interpretSentence_eq] at h
      cases ha : asSequences v with
      | error e => rw [ha] at h; cases h
      | ok P =>
        rw [ha] at h
        have : predictAndTag lower ws (fun _ _ => .ok P) d s = .ok ts := h
        have hx : tagSentences lower ws (fun _ _ => .ok P) { d with sentences := [s] } = .ok [ts] := by
          unfold tagSentences
          simp only [mapM']
          have h2 : predictAndTag lower ws (fun _ _ => Except.ok P) { d with sentences := [s] } s = .ok ts := this
          rw [h2]
        have := tagSentences_part hx
        simp only [List.map_cons, List.map_nil] at this
        cases this with
        | cons h1 _ => exact h1

theorem partOf_full {as bs : List (List TextToken)} (h : List.Forall₂ PartOf as bs)
    (hl : bs.flatten.length = as.flatten.length) : List.Forall₂ (fun a b => b.length = a.length) as bs := by
  induction h with
  | nil => exact .nil
  | @cons a b as bs h1 h2 ih =>
    simp only [List.flatten_cons, List.length_append] at hl
    have := h1.1
    have h3 := (partOf_flatten h2).1
    exact .cons (by omega) (ih (by omega))

/-- The tokens of a tagged document, sentence by sentence. -/
theorem tagDocument_tokens {lower : Str → Str} {ws : List WordInterp}
    {predict : Document → Sentence → Res Features} {d e : Document} (hb : Built d)
    (h : tagDocument lower (batchInterp ws) predict d = .ok e) {s : Sentence} (hs : s ∈ d.sentences) :
    ∃ ts, predictAndInterpret lower (batchInterp ws) predict d s = .ok ts ∧
      ∀ k, k < s.stop - s.start → Option.Rel (fun (u : TextToken) (c : Token) => c.pos = u.2.pos ∧ c.lemma' = u.2.lemma')
        ts[k]? e.tokens[s.start + k]? := by
  unfold tagDocument at h
  cases hm : mapM' (predictAndInterpret lower (batchInterp ws) predict d) d.sentences with
  | error e => rw [hm] at h; cases h
  | ok tss =>
    rw [hm] at h
    simp only at h
    rw [mapM'_ok_iff] at hm
    have hp : List.Forall₂ PartOf (d.sentences.map (fun s => slice d.textTokens s.start s.stop)) tss := by
      rw [List.forall₂_map_left_iff]
      exact hm.imp (fun _ _ h => predictAndInterpret_part h)
    obtain ⟨i, hi⟩ := List.mem_iff_getElem?.1 hs
    obtain ⟨ts, hts, hpred⟩ : ∃ ts, tss[i]? = some ts ∧
        predictAndInterpret lower (batchInterp ws) predict d s = .ok ts := by
      have := get_of_forall₂ hm i
      rw [hi] at this
      cases hx : tss[i]? with
      | none => rw [hx] at this; cases this
      | some ts =>
        rw [hx] at this
        cases this with
        | some h => exact ⟨ts, rfl, h⟩
    refine ⟨ts, hpred, ?_⟩
    intro k hk
    rcases fromDocument_of_parts hb hp with ⟨hl, e2, he2, hrel⟩ | ⟨_, hnil, he2⟩ | ⟨_, _, he2⟩
    · rw [he2] at h
      injection h with h
      subst h
      have hfull := partOf_full hp (by rw [textTokens_flatten hb.docOk, hl]; simp [Document.textTokens])
      rw [List.forall₂_map_left_iff] at hfull
      have hlen : List.Forall₂ (fun (s : Sentence) (b : List TextToken) => b.length = s.stop - s.start) d.sentences
          tss := by
        rw [List.forall₂_iff_get] at hfull ⊢
        refine ⟨hfull.1, fun j h1 h2 => ?_⟩
        rw [hfull.2 j h1 h2]
        have := (hb.docOk.tiles.mem (List.get_mem d.sentences ⟨j, h1⟩)).2
        simp only [slice, List.length_take, List.length_drop, Document.textTokens, List.length_map]
        omega
      have hg := (tiles_flatten_get hb.docOk.tiles hlen).2 i s ts hi hts (s.start + k) (by omega) (by omega)
      rw [Nat.sub_zero, Nat.add_sub_cancel_left] at hg
      rw [← hg]
      exact get_of_forall₂ hrel _
    · rw [he2] at h
      injection h with h
      subst h
      have : ts = [] := by
        have := List.flatten_eq_nil_iff.1 hnil ts (List.mem_of_getElem? hts)
        exact this
      subst this
      simp only [List.getElem?_nil]
      exact .none
    · rw [he2] at h
      cases h

end Verif
