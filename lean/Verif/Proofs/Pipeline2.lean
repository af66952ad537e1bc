import Verif.Proofs.Pipeline
import Verif.Props.Features
import Verif.Props.PosLabels

/-! Interpreting well-formed predictions. -/

namespace Verif

theorem pyGet_in_range {α : Type} {l : List α} {i : Int} (h0 : 0 ≤ i) (h : i < l.length) :
    ∃ x, pyGet l i = .ok x := by
  obtain ⟨n, rfl⟩ := Int.eq_ofNat_of_zero_le h0
  have hn : n < l.length := by exact_mod_cast h
  refine ⟨l[n], ?_⟩
  have h1 : ¬ ((n : Int) < 0) := by omega
  simp only [pyGet, h1, if_false, Int.toNat_natCast, List.getElem?_eq_getElem hn]

theorem decodeChars_total {chars : Dict Int Str} {ids : List Int}
    (h : ∀ i ∈ ids, i = PADDING ∨ i = OOV ∨ i = START ∨ i = END ∨ (chars.get? i).isSome) :
    ∃ s, decodeChars chars ids = .ok s := by
  induction ids with
  | nil => exact ⟨_, rfl⟩
  | cons i ids ih =>
    obtain ⟨s, hs⟩ := ih (fun j hj => h j (by simp [hj]))
    have hi := h i (by simp)
    unfold decodeChars
    split
    · exact ⟨_, rfl⟩
    · rename_i h1
      split
      · exact ⟨s, hs⟩
      · rename_i h2
        rcases hi with hi | hi | hi | hi | hi
        · exact absurd (.inr (.inr hi)) h2
        · exact absurd (.inr (.inl hi)) h2
        · exact absurd (.inl hi) h2
        · exact absurd hi h1
        · obtain ⟨c, hc⟩ := Option.isSome_iff_exists.mp hi
          have : chars.getItem i = .ok c := by simp [Dict.getItem, hc]
          simp only [this, hs]
          exact ⟨_, rfl⟩

theorem WordInterp.apply_total {lower : Str → Str} {i : WordInterp} (ht : i.Trained) {ids : List Int}
    (h : i.InRange ids) (t : TextToken) : ∃ w, i.apply lower t ids = .ok w := by
  cases i with
  | pos n table =>
    obtain ⟨s, labels, hb⟩ := ht
    obtain ⟨q, hq⟩ := C45_predictions_decode s labels table hb ids h t.2
    exact ⟨_, hq⟩
  | lemmaDict n lemmas =>
    obtain ⟨i, rest, rfl, h0, h1⟩ := h
    obtain ⟨l, hl⟩ := pyGet_in_range h0 h1
    refine ⟨{ t.2 with lemma' := l }, ?_⟩
    simp only [WordInterp.apply, interpretLemma]
    have : pyGet (i :: rest) 0 = .ok i := rfl
    simp [this, hl, Token.withMorphology_ok]
  | lemmaRule n rules =>
    obtain ⟨i, rest, rfl, h0, h1⟩ := h
    obtain ⟨r, hr⟩ := pyGet_in_range h0 h1
    have : pyGet (i :: rest) 0 = .ok i := rfl
    simp only [WordInterp.apply, interpretRule, this, hr]
    split
    · rename_i ha
      have : ∃ l, r.transform (lower t.1) = .ok l := by
        simp only [LemmaRule.transform, ha, if_true, Bool.not_true, Bool.false_eq_true, if_false]
        exact ⟨_, rfl⟩
      obtain ⟨l, hl⟩ := this
      simp [hl, Token.withMorphology_ok]
    · simp [Token.withMorphology_ok]
  | lemmaChars n chars =>
    obtain ⟨s, hs⟩ := decodeChars_total h
    simp [WordInterp.apply, interpretChars, hs, Token.withMorphology_ok]

theorem featInts_intArray (ids : List Int) : featInts (intArray ids) = .ok ids := by
  simp only [featInts, intArray]
  rw [mapM'_ok_iff, List.forall₂_map_left_iff, List.forall₂_same]
  exact fun _ _ => rfl

/-- What is known about the labels of one word. -/
def WordLabels (labels : Dict Str (List (List Int))) (j : Nat) (v : Features) : Prop :=
  ∀ k rows, labels.get? k = some rows → ∃ ids, rows[j]? = some ids ∧ v.get? k = some (intArray ids)

theorem setMorph_other {x : Option Pos ⊕ Option Str} {t : Token} :
    (x.isLeft = false → (setMorph t x).pos = t.pos) ∧
    (x.isLeft = true → (setMorph t x).lemma' = t.lemma') := by
  cases x with
  | inl q => exact ⟨by simp, fun _ => rfl⟩
  | inr l => exact ⟨fun _ => rfl, by simp⟩

theorem WordInterp.value_kind {lower : Str → Str} {i : WordInterp} {text : Str} {ids : List Int}
    {x : Option Pos ⊕ Option Str} (h : i.value lower text ids = .ok x) : x.isLeft = i.tagsPos := by
  cases i with
  | pos n table =>
    simp only [WordInterp.value] at h
    split at h
    · cases h
    · injection h with h; subst h; rfl
  | lemmaDict n lemmas =>
    simp only [WordInterp.value] at h
    split at h
    · cases h
    · split at h
      · cases h
      · injection h with h; subst h; rfl
  | lemmaRule n rules =>
    simp only [WordInterp.value] at h
    split at h
    · cases h
    · split at h
      · cases h
      · split at h
        · split at h
          · cases h
          · injection h with h; subst h; rfl
        · injection h with h; subst h; rfl
  | lemmaChars n chars =>
    simp only [WordInterp.value] at h
    split at h
    · cases h
    · injection h with h; subst h; rfl

theorem apply_value {lower : Str → Str} {i : WordInterp} {t : TextToken} {ids : List Int} {w : Token}
    (h : i.apply lower t ids = .ok w) : ∃ x, i.value lower t.1 ids = .ok x ∧ w = setMorph t.2 x := by
  rw [WordInterp.apply_eq] at h
  cases hx : i.value lower t.1 ids with
  | error e => rw [hx] at h; cases h
  | ok x =>
    rw [hx] at h
    injection h with h
    exact ⟨x, rfl, h.symm⟩

/-- The interpreters applied one after the other. -/
theorem composite_total {lower : Str → Str} {is : List WordInterp}
    {labels : Dict Str (List (List Int))} {j : Nat} {v : Features} (hv : WordLabels labels j v)
    (hi : ∀ i ∈ is, i.Trained ∧ ∃ rows, labels.get? i.name = some rows ∧ ∀ ids ∈ rows, i.InRange ids)
    (t : TextToken) :
    ∃ u, compositeInterpret (is.map (fun i => i.interpret lower)) t v = .ok u ∧
      InterpretedAs lower is labels j t u.2 := by
  unfold compositeInterpret
  rw [show is = is.reverse.reverse by simp]
  rw [show is = is.reverse.reverse by simp] at hi
  generalize is.reverse = rs at hi ⊢
  induction rs with
  | nil =>
    refine ⟨t, rfl, ?_, fun _ => rfl, fun _ => rfl⟩
    rintro i ⟨pre, post, h, _⟩
    simp at h
  | cons i rs ih =>
    rw [List.reverse_cons] at hi ⊢
    obtain ⟨u, hu, hd, hp, hl⟩ := ih (fun x hx => hi x (by simp [List.mem_reverse.mp hx]))
    obtain ⟨htr, rows, hrows, hrange⟩ := hi i (by simp)
    obtain ⟨ids, hids, hvi⟩ := hv i.name rows hrows
    have htext : u.1 = t.1 := (composite_morphed hu).1
    obtain ⟨w, hw⟩ := WordInterp.apply_total (lower := lower) htr (hrange ids (List.mem_of_getElem? hids)) t
    obtain ⟨x, hx, hwx⟩ := apply_value hw
    have hkind := WordInterp.value_kind hx
    have hint : i.interpret lower u v = .ok (u.1, setMorph u.2 x) := by
      unfold WordInterp.interpret
      have : v.getItem i.name = .ok (intArray ids) := by simp [Dict.getItem, hvi]
      simp only [this, featInts_intArray, WordInterp.apply_eq, htext, hx]
    refine ⟨(u.1, setMorph u.2 x), ?_, ?_, ?_, ?_⟩
    · rw [List.map_append, forM'_append, hu]
      simp [forM', hint]
    · rintro i' ⟨pre, post, he, hpost⟩
      rcases List.eq_nil_or_concat post with e | ⟨post', z, e⟩
      · subst e
        obtain ⟨_, e2⟩ := List.append_inj' he rfl
        injection e2 with e2
        subst e2
        refine ⟨rows, ids, w, hrows, hids, hw, fun h => ?_, fun h => ?_⟩
        · rw [hwx]
          cases x with
          | inl q => rfl
          | inr l => rw [h] at hkind; cases hkind
        · rw [hwx]
          cases x with
          | inl q => rw [h] at hkind; cases hkind
          | inr l => rfl
      · subst e
        rw [List.concat_eq_append] at he hpost
        obtain ⟨e1, e2⟩ := List.append_inj' (s₁ := rs.reverse) (t₁ := [i]) (s₂ := pre ++ i' :: post')
          (t₂ := [z]) (by simpa using he) rfl
        injection e2 with e2
        subst e2
        have hne : i.tagsPos ≠ i'.tagsPos := hpost i (by simp)
        obtain ⟨rows', ids', w', g1, g2, g3, g4, g5⟩ := hd i' ⟨pre, post', e1,
          fun y hy => hpost y (by simp [hy])⟩
        refine ⟨rows', ids', w', g1, g2, g3, fun h => ?_, fun h => ?_⟩
        · rw [← g4 h]
          refine (setMorph_other (x := x) (t := u.2)).1 ?_
          rw [hkind]
          cases hi' : i.tagsPos with
          | true => exact absurd (hi'.trans h.symm) hne
          | false => rfl
        · rw [← g5 h]
          refine (setMorph_other (x := x) (t := u.2)).2 ?_
          rw [hkind]
          cases hi' : i.tagsPos with
          | true => rfl
          | false => exact absurd (hi'.trans h.symm) hne
    · intro hall
      have h1 : x.isLeft = false := hkind.trans (hall i (by simp))
      rw [setMorph_other.1 h1]
      exact hp (fun y hy => hall y (by simp [List.mem_reverse.mp hy]))
    · intro hall
      have h1 : x.isLeft = true := hkind.trans (hall i (by simp))
      rw [setMorph_other.2 h1]
      exact hl (fun y hy => hall y (by simp [List.mem_reverse.mp hy]))

theorem asSequences_ok {v : Features} (h : ∀ p ∈ v.entries, ∃ l, p.2 = .list l) :
    ∃ w, asSequences v = .ok w ∧ w.keys = v.keys ∧
      ∀ k l, v.get? k = some (.list l) → w.get? k = some l := by
  have h1 : mapM' asSequence v.entries = .ok (v.entries.map (fun p => (p.1, p.2.items))) := by
    apply mapM'_pure
    intro p hp
    obtain ⟨l, hl⟩ := h p hp
    simp only [asSequence, hl, Feat.items]
  have hn : ((v.entries.map (fun p => (p.1, p.2.items))).map Prod.fst).Nodup := by
    rw [List.map_map]
    exact v.nodup
  refine ⟨Dict.ofList (v.entries.map (fun p => (p.1, p.2.items))), ?_, ?_, ?_⟩
  · simp only [asSequences, h1]
  · simp only [Dict.keys, Dict.ofList_entries _ hn, List.map_map]
    rfl
  · intro k l hl
    rw [Dict.get?_mem, Dict.ofList_entries _ hn]
    exact List.mem_map.mpr ⟨(k, .list l), Dict.get?_mem.mp hl, rfl⟩

/-- The words of one sentence. -/
theorem tagSentence_total {lower : Str → Str} {is : List WordInterp}
    {labels : Dict Str (List (List Int))} {pred : Dict Str (List Feat)} {ts : List TextToken}
    (hp : PredictionFor ts.length labels pred)
    (hi : ∀ i ∈ is, i.Trained ∧ ∃ rows, labels.get? i.name = some rows ∧ ∀ ids ∈ rows, i.InRange ids) :
    ∃ us, tagSentence lower is ts pred = .ok us ∧ us.length = ts.length ∧
      ∀ (j : Nat) t u, ts[j]? = some t → us[j]? = some u → InterpretedAs lower is labels j t u.2 := by
  obtain ⟨hkeys, hne, hrows⟩ := hp
  have hsome : ∀ k ∈ labels.keys, ∃ rows, labels.get? k = some rows := by
    intro k hk
    exact Option.isSome_iff_exists.mp (Dict.get?_isSome.mpr hk)
  have hpe : pred.entries ≠ [] := by
    intro h0
    apply hne
    rw [← hkeys]
    simp [Dict.keys, h0]
  have hlen1 : 1 ≤ (converted pred).length := by
    refine converted_length_ge pred hpe 1 ?_
    rintro ⟨k, l⟩ hm
    obtain ⟨rows, hr⟩ := hsome k (by rw [← hkeys]; exact List.mem_map.mpr ⟨(k, l), hm, rfl⟩)
    have := (hrows k rows hr).2
    rw [Dict.get?_mem.mpr hm] at this
    injection this with this
    subst this
    simp
  obtain ⟨v, c, hc⟩ : ∃ v c, converted pred = v :: c := by
    cases hcc : converted pred with
    | nil => rw [hcc] at hlen1; simp at hlen1
    | cons v c => exact ⟨v, c, rfl⟩
  have hget : ∀ k, v.get? k = (pred.get? k).bind (fun x => x[0]?) :=
    get?_converted pred 0 v (by rw [hc]; rfl)
  have hv : ∀ k rows, labels.get? k = some rows → v.get? k = some (.list (rows.map intArray)) := by
    intro k rows hr
    rw [hget, (hrows k rows hr).2]
    rfl
  have hvk : ∀ k, k ∈ v.keys → k ∈ labels.keys := by
    intro k hk
    rw [← Dict.get?_isSome, hget] at hk
    rw [← hkeys, ← Dict.get?_isSome]
    cases hg : pred.get? k with
    | none => rw [hg] at hk; simp at hk
    | some x => rfl
  obtain ⟨w, hw, hwk, hwg⟩ := asSequences_ok (v := v) (by
    rintro ⟨k, f⟩ hm
    obtain ⟨rows, hr⟩ := hsome k (hvk k (List.mem_map.mpr ⟨(k, f), hm, rfl⟩))
    have := hv k rows hr
    rw [Dict.get?_mem.mpr hm] at this
    injection this with this
    exact ⟨_, this⟩)
  have hwrow : ∀ k rows, labels.get? k = some rows → w.get? k = some (rows.map intArray) :=
    fun k rows hr => hwg k _ (hv k rows hr)
  have hwe : w.entries ≠ [] := by
    obtain ⟨k, hk⟩ := List.exists_mem_of_ne_nil _ hne
    obtain ⟨rows, hr⟩ := hsome k hk
    exact List.ne_nil_of_mem (Dict.get?_mem.mp (hwrow k rows hr))
  have hlen2 : ts.length ≤ (converted w).length := by
    refine converted_length_ge w hwe _ ?_
    rintro ⟨k, l⟩ hm
    have hk : k ∈ v.keys := by rw [← hwk]; exact List.mem_map.mpr ⟨(k, l), hm, rfl⟩
    obtain ⟨rows, hr⟩ := hsome k (hvk k hk)
    have := hwrow k rows hr
    rw [Dict.get?_mem.mpr hm] at this
    injection this with this
    subst this
    simp [(hrows k rows hr).1]
  have hword : ∀ (j : Nat) t e, ts[j]? = some t → (converted w)[j]? = some e →
      ∃ u, compositeInterpret (is.map (fun i => i.interpret lower)) t e = .ok u ∧
        InterpretedAs lower is labels j t u.2 := by
    intro j t e hj he
    refine composite_total ?_ hi t
    intro k rows hr
    have hjl : j < rows.length := by
      rw [(hrows k rows hr).1]
      exact (List.getElem?_eq_some_iff.mp hj).1
    refine ⟨rows[j], List.getElem?_eq_getElem hjl, ?_⟩
    rw [get?_converted w j e he, hwrow k rows hr]
    simp [List.getElem?_eq_getElem hjl]
  have hall : ∃ us, mapM' (fun p : TextToken × Features =>
      compositeInterpret (is.map (fun i => i.interpret lower)) p.1 p.2) (ts.zip (converted w)) = .ok us := by
    apply mapM'_total
    rintro ⟨t, e⟩ hm
    obtain ⟨j, hj⟩ := List.mem_iff_getElem?.mp hm
    rw [List.getElem?_zip_eq_some] at hj
    obtain ⟨u, hu, _⟩ := hword j t e hj.1 hj.2
    exact ⟨u, hu⟩
  obtain ⟨us, hus⟩ := hall
  have hus2 := mapM'_ok_iff.mp hus
  have hzl : (ts.zip (converted w)).length = ts.length := by
    rw [List.length_zip]; omega
  refine ⟨us, ?_, ?_, ?_⟩
  · unfold tagSentence
    have : iterInterpret (interpretWords lower is) [ts] pred = .ok [us] := by
      unfold iterInterpret
      rw [hc]
      simp only [List.zip_cons_cons, List.zip_nil_left, mapM', interpretWords, hw, iterInterpret, hus]
    simp [this]
  · rw [← hus2.length_eq, hzl]
  · intro j t u hj hu
    have hjl : j < ts.length := (List.getElem?_eq_some_iff.mp hj).1
    have he : (converted w)[j]? = some ((converted w)[j]'(by omega)) := List.getElem?_eq_getElem _
    obtain ⟨u', hu', hint⟩ := hword j t _ hj he
    have hz : (ts.zip (converted w))[j]? = some (t, (converted w)[j]'(by omega)) := by
      rw [List.getElem?_zip_eq_some]
      exact ⟨hj, he⟩
    rw [forall₂_getElem?] at hus2
    have := hus2.2 j _ _ hz hu
    simp only at this
    rw [hu'] at this
    injection this with this
    subst this
    exact hint

theorem tiles_flatten_get {β : Type} {ss : List Sentence} {bs : List (List β)} {a n : Nat}
    (ht : Tiles a ss n)
    (h : List.Forall₂ (fun (s : Sentence) (b : List β) => b.length = s.stop - s.start) ss bs) :
    bs.flatten.length = n - a ∧
    ∀ (i : Nat) s b, ss[i]? = some s → bs[i]? = some b → ∀ j : Nat, s.start ≤ j → j < s.stop →
      bs.flatten[j - a]? = b[j - s.start]? := by
  induction h generalizing a with
  | nil => simp only [Tiles] at ht; simp [ht]
  | @cons s0 b0 ss bs h1 _ ih =>
    simp only [Tiles] at ht
    obtain ⟨ih1, ih2⟩ := ih ht.2
    have hlt := s0.lt
    have hle := ht.2.le
    refine ⟨?_, ?_⟩
    · rw [List.flatten_cons, List.length_append, ih1, h1]
      omega
    · intro i s b hs hb j h2 h3
      rw [List.flatten_cons]
      cases i with
      | zero =>
        simp only [List.getElem?_cons_zero, Option.some.injEq] at hs hb
        subst hs hb
        rw [List.getElem?_append_left (by omega), ht.1]
      | succ i =>
        simp only [List.getElem?_cons_succ] at hs hb
        have h4 := (ht.2.mem (List.mem_of_getElem? hs)).1
        rw [List.getElem?_append_right (by omega), h1, ← ih2 i s b hs hb j h2 h3]
        congr 1
        omega

/-- Tagging one document from well-formed predictions. -/
theorem neuralTag_total {lower : Str → Str} {is : List WordInterp}
    {predict : Document → Sentence → Res (Dict Str (List Feat))} {d : Document} (hd : DocOk d)
    {labels : Sentence → Dict Str (List (List Int))}
    (hp : ∀ s ∈ d.sentences, ∃ pred, predict d s = .ok pred ∧
      PredictionFor (s.stop - s.start) (labels s) pred)
    (hi : ∀ s ∈ d.sentences, ∀ i ∈ is, i.Trained ∧ ∃ rows, (labels s).get? i.name = some rows ∧
      ∀ ids ∈ rows, i.InRange ids) :
    ∃ d', neuralTag lower is predict d = .ok d' ∧ Retagged d d' ∧
      ∀ s ∈ d.sentences, ∀ (j : Nat) t u, s.start ≤ j → j < s.stop → d.tokens[j]? = some t →
        d'.tokens[j]? = some u →
        InterpretedAs lower is (labels s) (j - s.start) (tokText d.text t, t) u := by
  have hlen : d.textTokens.length = d.tokens.length := by simp [Document.textTokens]
  have hsl : ∀ s ∈ d.sentences, (slice d.textTokens s.start s.stop).length = s.stop - s.start := by
    intro s hs
    have h1 := (hd.tiles.mem hs).2
    rw [slice_length, hlen]
    omega
  have hsent : ∀ s ∈ d.sentences, ∃ us, predictAndTag lower is predict d s = .ok us ∧
      us.length = s.stop - s.start ∧ ∀ (j : Nat) t u, (slice d.textTokens s.start s.stop)[j]? = some t →
        us[j]? = some u → InterpretedAs lower is (labels s) j t u.2 := by
    intro s hs
    obtain ⟨pred, h1, h2⟩ := hp s hs
    rw [← hsl s hs] at h2
    obtain ⟨us, h3, h4, h5⟩ := tagSentence_total (lower := lower) h2 (hi s hs)
    exact ⟨us, by simp only [predictAndTag, h1, h3], by rw [h4, hsl s hs], h5⟩
  obtain ⟨tss, htss⟩ : ∃ tss, tagSentences lower is predict d = .ok tss := by
    unfold tagSentences
    apply mapM'_total
    intro s hs
    obtain ⟨us, h1, _⟩ := hsent s hs
    exact ⟨us, h1⟩
  have hf := htss
  unfold tagSentences at hf
  rw [mapM'_ok_iff] at hf
  have hprop : List.Forall₂ (fun (s : Sentence) (us : List TextToken) => us.length = s.stop - s.start ∧
      ∀ (j : Nat) t u, (slice d.textTokens s.start s.stop)[j]? = some t →
        us[j]? = some u → InterpretedAs lower is (labels s) j t u.2) d.sentences tss := by
    rw [List.forall₂_iff_get] at hf ⊢
    refine ⟨hf.1, fun i h1 h2 => ?_⟩
    have h3 := hf.2 i h1 h2
    obtain ⟨us, h4, h5⟩ := hsent _ (List.get_mem d.sentences ⟨i, h1⟩)
    rw [h4] at h3
    injection h3 with h3
    rw [← h3]
    exact h5
  obtain ⟨hfl, hget⟩ := tiles_flatten_get hd.tiles (hprop.imp (fun _ _ h => h.1))
  simp only [Nat.sub_zero] at hfl hget
  have hpart := partOf_flatten (tagSentences_part htss)
  rw [textTokens_flatten hd] at hpart
  have hmor := hpart.2 (by rw [hfl, hlen])
  have h2 : List.Forall₂ (fun a b : Token => ∃ p l, b = { a with pos := p, lemma' := l }) d.tokens
      (tss.flatten.map Prod.snd) := by
    rw [List.forall₂_map_right_iff]
    unfold Document.textTokens at hmor
    rw [List.forall₂_map_left_iff] at hmor
    exact hmor.imp (fun a b hab => hab.2)
  obtain ⟨d', e1, e2, e3⟩ := retagged_of hd h2
  refine ⟨d', by simp only [neuralTag, htss, e1], e2, ?_⟩
  intro s hs j t u h3 h4 h5 h6
  obtain ⟨i, hi'⟩ := List.mem_iff_getElem?.mp hs
  have hil : i < tss.length := by
    rw [← hprop.length_eq]
    exact (List.getElem?_eq_some_iff.mp hi').1
  have hb := hget i s _ hi' (List.getElem?_eq_getElem hil) j h3 h4
  have hjl : j < tss.flatten.length := by
    rw [hfl]
    exact (List.getElem?_eq_some_iff.mp h5).1
  rw [List.getElem?_eq_getElem hjl] at hb
  have hrow : InterpretedAs lower is (labels s) (j - s.start) (tokText d.text t, t)
      (tss.flatten[j]).2 := by
    rw [forall₂_getElem?] at hprop
    refine (hprop.2 i s _ hi' (List.getElem?_eq_getElem hil)).2 (j - s.start) _ _ ?_ hb.symm
    rw [slice_getElem?, if_pos (by omega), show s.start + (j - s.start) = j by omega]
    simp [Document.textTokens, h5]
  rw [forall₂_getElem?] at e3
  obtain ⟨e4, e5⟩ := e3.2 j _ u (by rw [List.getElem?_map, List.getElem?_eq_getElem hjl]; rfl) h6
  obtain ⟨r1, r2, r3⟩ := hrow
  refine ⟨?_, ?_, ?_⟩
  · intro i hi
    obtain ⟨rows, ids, w, g1, g2, g3, g4, g5⟩ := r1 i hi
    exact ⟨rows, ids, w, g1, g2, g3, fun h => e4.trans (g4 h), fun h => e5.trans (g5 h)⟩
  · exact fun h => e4.trans (r2 h)
  · exact fun h => e5.trans (r3 h)

end Verif
