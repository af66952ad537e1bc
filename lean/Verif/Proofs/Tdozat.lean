import Verif.Proofs.Wrappers

/-! # Lemmas about distributing the predictions of the tdozat parser -/

namespace Verif

theorem argsort_perm {l : List Nat} {n : Nat} (h : l.Perm (List.range n)) {q : Nat} (hq : q < n) :
    ∃ i, (argsort l)[q]? = some i ∧ l[i]? = some q := by
  have hp : (argsort l).Perm (List.range l.length) := pySorted_perm _ _
  have hs : (argsort l).Pairwise (fun a b => l[a]?.getD 0 ≤ l[b]?.getD 0) := by
    have := pySorted_pairwise (le := fun a b => (decide (l[a]?.getD 0 ≤ l[b]?.getD 0)) = true)
      (fun a b => by simp only [decide_eq_true_eq]; omega)
      (fun a b c => by simp only [decide_eq_true_eq]; omega) (List.range l.length)
    exact this.imp (fun h => by simpa using h)
  have hm : ((argsort l).map (fun i => l[i]?.getD 0)).Perm (List.range n) := by
    refine (hp.map _).trans ?_
    have : (List.range l.length).map (fun i => l[i]?.getD 0) = l := by
      apply List.ext_getElem?
      intro i
      rw [List.getElem?_map]
      by_cases hi : i < l.length
      · rw [List.getElem?_range hi, List.getElem?_eq_getElem hi]
        simp [List.getElem?_eq_getElem hi]
      · rw [List.getElem?_eq_none (by simpa using hi), List.getElem?_eq_none (by simpa using hi)]
        rfl
    rw [this]
    exact h
  have heq : (argsort l).map (fun i => l[i]?.getD 0) = List.range n := by
    refine hm.eq_of_pairwise (le := (· ≤ ·)) (fun a b _ _ h1 h2 => Nat.le_antisymm h1 h2) ?_ ?_
    · rw [List.pairwise_map]
      exact hs
    · exact List.pairwise_lt_range.imp (fun h => Nat.le_of_lt h)
  have h1 := congrArg (fun x => x[q]?) heq
  simp only [List.getElem?_map, List.getElem?_range hq] at h1
  obtain ⟨i, h2, h3⟩ := Option.map_eq_some_iff.mp h1
  refine ⟨i, h2, ?_⟩
  have hi : i < l.length := by
    have := hp.mem_iff.mp (List.mem_of_getElem? h2)
    simpa using this
  rw [List.getElem?_eq_getElem hi] at h3 ⊢
  simpa using h3

theorem tdLine_holds {p : TdPreds} {ef : List Str} {total : Nat} {len : Nat → Nat}
    {cell : Nat → Nat → Str → Str} {extra : Nat → Nat → Str → ExtraVal}
    (h : Holds p ef total len cell extra) {i n k : Nat} (hi : p.indices[i]? = some n) (hk : k < len n) :
    tdLine p i (k + 1) = .ok (predictedRow p (cell n k)) := by
  have hrow : ∀ f rows, p.fields.get? f = some rows → rowsAt rows i (k + 1) = .ok (cell n k f) := by
    intro f rows hf
    obtain ⟨row, h1, h2⟩ := h.fields f rows hf i n k hi hk
    simp [rowsAt, h1, h2]
  have hfield : ∀ f, tdField p i (k + 1) f = .ok (if f ∈ p.fields.keys then cell n k f else ['_']) := by
    intro f
    unfold tdField
    cases hf : p.fields.get? f with
    | none =>
      rw [if_neg]
      · rfl
      · rw [← Dict.get?_isSome, hf]; simp
    | some rows =>
      rw [if_pos (by rw [← Dict.get?_isSome, hf]; rfl)]
      exact hrow f rows hf
  obtain ⟨rows, hrows⟩ : ∃ rows, p.fields.get? "id".toList = some rows := by
    have := h.ids
    rw [← Dict.get?_isSome] at this
    exact Option.isSome_iff_exists.mp this
  have hm : mapM' (tdField p i (k + 1)) tdFields =
      .ok (tdFields.map (fun f => if f ∈ p.fields.keys then cell n k f else ['_'])) :=
    mapM'_pure (fun f _ => hfield f)
  unfold tdLine
  simp only [Dict.getItem, hrows, hrow _ _ hrows, hm]
  have := h.ids
  simp only [predictedRow, tdFields, List.map_cons, List.map_nil, if_pos this]

theorem tdExtras_holds {p : TdPreds} {ef : List Str} {total : Nat} {len : Nat → Nat}
    {cell : Nat → Nat → Str → Str} {extra : Nat → Nat → Str → ExtraVal}
    (h : Holds p ef total len cell extra) {i n k : Nat} (hi : p.indices[i]? = some n) (hk : k < len n) :
    mapM' (tdExtra p i (k + 1)) ef = .ok (ef.map (fun f => (f, extra n k f))) := by
  apply mapM'_pure
  intro f hf
  obtain ⟨rows, h1, h2⟩ := h.extras f hf
  obtain ⟨row, h3, h4⟩ := h2 i n k hi hk
  simp [tdExtra, Dict.getItem, h1, rowsAt, h3, h4]

/-- The token made from `t`. -/
def tdToken (t : Token) (w : PTok) (extras : List (Str × ExtraVal)) : Token :=
  { t with
    pos := w.pos, lemma' := w.lemma', deprel := w.deprel, headDoc := none
    headSent := computeHead w.head
    extras := TokenExtras.update t.extras (Dict.ofList extras) }

theorem tdApply_eq (t : Token) (w : PTok) (extras : List (Str × ExtraVal)) :
    tdApply t w extras = .ok (tdToken t w extras) := by
  simp only [tdApply, Token.withMorphology_ok, Token.withSyntax_ok, Token.updateExtras,
    Token.withExtras_ok, tdToken, Option.getD_some]

theorem computeHead_sub (h : Option Int) : computeHead h = h.map (fun x => x - 1) := by
  cases h with
  | none => rfl
  | some x =>
    simp only [computeHead, Option.map_some]
    split
    · rename_i h0; subst h0; rfl
    · rfl

theorem extras_update (e : TokenExtras) (ef : List Str) (extra : Str → ExtraVal) (k : Str) :
    (TokenExtras.update e (Dict.ofList (ef.map (fun f => (f, extra f))))).get? k =
      if k ∈ ef then some (extra k) else e.get? k := by
  have hg : (Dict.ofList (ef.map (fun f => (f, extra f)))).get? k =
      if k ∈ ef then some (extra k) else none := by
    unfold Dict.ofList
    rw [updateList_get?, ← List.map_reverse, List.find?_map]
    have hemp : (Dict.empty : Dict Str ExtraVal).get? k = none := rfl
    rw [hemp, Option.or_none, Option.map_map]
    by_cases hk : k ∈ ef
    · rw [if_pos hk]
      have h1 : ∃ x ∈ ef.reverse, ((fun e : Str × ExtraVal => decide (e.1 = k)) ∘ fun f => (f, extra f)) x = true :=
        ⟨k, by simpa using hk, by simp⟩
      obtain ⟨x, hx⟩ := Option.isSome_iff_exists.mp (List.find?_isSome.mpr h1)
      rw [hx]
      have h2 := List.find?_some hx
      simp only [Function.comp_apply, decide_eq_true_eq] at h2
      simp [h2]
    · rw [if_neg hk, List.find?_eq_none.mpr]
      · rfl
      · intro x hx h2
        simp only [Function.comp_apply, decide_eq_true_eq] at h2
        subst h2
        exact hk (by simpa using hx)
  unfold TokenExtras.update
  split
  · rename_i h0
    have h1 : (Dict.ofList (ef.map (fun f => (f, extra f)))).get? k = none := by
      rw [Dict.get?]
      rw [List.isEmpty_iff] at h0
      rw [h0]
      rfl
    rw [hg] at h1
    split at h1
    · cases h1
    · rename_i h2
      rw [if_neg h2]
  · rw [Dict.get?_update, hg]
    split <;> rfl

theorem tdToken_taken {t u : Token} {w : PTok} {ef : List Str} {extra : Str → ExtraVal}
    (h1 : SameButHeads (tdToken t w (ef.map (fun f => (f, extra f)))) u)
    (h2 : u.headSent = (tdToken t w (ef.map (fun f => (f, extra f)))).headSent) :
    TakenFrom t w ef extra u := by
  obtain ⟨e1, e2, e3, e4, e5, e6, e7, e8⟩ := h1
  refine ⟨e1.symm, e2.symm, e3.symm, e4.symm, e5.symm, e6.symm, e7.symm, ?_, ?_⟩
  · rw [h2, ← computeHead_sub]; rfl
  · intro k
    rw [← e8]
    exact extras_update t.extras ef extra k

theorem tdDocument_total {p : TdPreds} {ef : List Str} {total : Nat} {len : Nat → Nat}
    {cell : Nat → Nat → Str → Str} {extra : Nat → Nat → Str → ExtraVal} {w : Nat → Nat → PTok}
    (h : Holds p ef total len cell extra) {d : Document} (hd : DocOk d) {k : Nat}
    (ht : k + d.sentences.length ≤ total)
    (hl : ∀ (q : Nat) s, d.sentences[q]? = some s → len (k + q) = s.stop - s.start)
    (hw : ∀ (q : Nat) s, d.sentences[q]? = some s → ∀ j < s.stop - s.start,
      parseLine tdCols (predictedRow p (cell (k + q) j)) = .ok (w (k + q) j)) :
    ∃ d', tdDocument p ef k d = .ok d' ∧ d'.text = d.text ∧ d'.sentences = d.sentences ∧
      ∀ (q : Nat) s, d.sentences[q]? = some s →
        (d.sentenceTokens s).length = (d'.sentenceTokens s).length ∧
        ∀ (j : Nat) t u, (d.sentenceTokens s)[j]? = some t → (d'.sentenceTokens s)[j]? = some u →
          TakenFrom t (w (k + q) j) ef (extra (k + q) j) u := by
  have hlen : ∀ s ∈ d.sentences, (slice d.tokens s.start s.stop).length = s.stop - s.start := by
    intro s hs
    rw [slice_length]
    have := (hd.tiles.mem hs).2
    omega
  have hsent : ∀ (q : Nat) s, d.sentences[q]? = some s → tdSentence p ef d (s, k + q) =
      .ok ((slice d.tokens s.start s.stop).zipIdx.map (fun x =>
        tdToken x.1 (w (k + q) x.2) (ef.map (fun f => (f, extra (k + q) x.2 f))))) := by
    intro q s hs
    have hq := (List.getElem?_eq_some_iff.mp hs).1
    obtain ⟨i, h1, h2⟩ := argsort_perm h.indices (q := k + q) (by omega)
    unfold tdSentence
    simp only [h1]
    have hz : (slice d.tokens s.start s.stop).zipIdx 1 =
        (slice d.tokens s.start s.stop).zipIdx.map (fun x => (x.1, x.2 + 1)) := by
      apply List.ext_getElem?
      intro a
      simp only [List.getElem?_zipIdx, List.getElem?_map, Option.map_map]
      congr 1
      funext x
      simp [Nat.add_comm]
    rw [hz]
    have hm : ∀ (l : List (Token × Nat)), (∀ x ∈ l, x.2 < s.stop - s.start) →
        mapM' (tdWord p ef i) (l.map (fun x => (x.1, x.2 + 1))) = .ok (l.map (fun x =>
          tdToken x.1 (w (k + q) x.2) (ef.map (fun f => (f, extra (k + q) x.2 f))))) := by
      intro l hx
      induction l with
      | nil => rfl
      | cons x l ih =>
        have hj := hx x (by simp)
        have hk' : x.2 < len (k + q) := by rw [hl q s hs]; exact hj
        have e1 : tdWord p ef i (x.1, x.2 + 1) = .ok (tdToken x.1 (w (k + q) x.2)
            (ef.map (fun f => (f, extra (k + q) x.2 f)))) := by
          simp only [tdWord, tdLine_holds h h2 hk', tdExtras_holds h h2 hk', hw q s hs x.2 hj, tdApply_eq]
        simp only [List.map_cons, mapM', e1, ih (fun y hy => hx y (by simp [hy]))]
    apply hm
    rintro ⟨t, j⟩ hx
    rw [List.mem_zipIdx_iff_getElem?] at hx
    have := (List.getElem?_eq_some_iff.mp hx).1
    rw [hlen s (List.mem_of_getElem? hs)] at this
    exact this
  obtain ⟨tss, htss⟩ : ∃ tss, mapM' (tdSentence p ef d) (d.sentences.zipIdx k) = .ok tss := by
    apply mapM'_total
    rintro ⟨s, n⟩ hx
    obtain ⟨q, hq⟩ := List.mem_iff_getElem?.mp hx
    rw [List.getElem?_zipIdx] at hq
    obtain ⟨s', h1, h2⟩ := Option.map_eq_some_iff.mp hq
    injection h2 with h2 h3
    subst h2 h3
    exact ⟨_, hsent q _ h1⟩
  have hf := forall₂_getElem?.mp (mapM'_ok_iff.mp htss)
  have hget : ∀ (q : Nat) s ts, d.sentences[q]? = some s → tss[q]? = some ts →
      ts = (slice d.tokens s.start s.stop).zipIdx.map (fun x =>
        tdToken x.1 (w (k + q) x.2) (ef.map (fun f => (f, extra (k + q) x.2 f)))) := by
    intro q s ts hs hts
    have h1 : (d.sentences.zipIdx k)[q]? = some (s, k + q) := by
      rw [List.getElem?_zipIdx, hs]
      rfl
    have h2 := hf.2 q _ _ h1 hts
    rw [hsent q s hs] at h2
    injection h2 with h2
    exact h2.symm
  have hlq : d.sentences.length = tss.length := by
    rw [← hf.1, List.length_zipIdx]
  have hb : List.Forall₂ (fun (s : Sentence) ts => List.Forall₂ (fun a b => SameSpan a b ∧ b.headDoc = none)
      (slice d.tokens s.start s.stop) ts) d.sentences tss := by
    rw [forall₂_getElem?]
    refine ⟨hlq, fun q s ts hs hts => ?_⟩
    rw [hget q s ts hs hts, forall₂_getElem?]
    refine ⟨by simp, fun j a b ha hb => ?_⟩
    rw [List.getElem?_map, List.getElem?_zipIdx, ha] at hb
    simp only [Option.map_some, Option.some.injEq] at hb
    subst hb
    exact ⟨⟨rfl, rfl, rfl, rfl⟩, rfl⟩
  obtain ⟨r, hr, hr2⟩ := fromDocument_bySentence hd hb
  refine ⟨⟨d.text, r, d.sentences⟩, by simp only [tdDocument, htss, hr], rfl, rfl, ?_⟩
  intro q s hs
  have hqt : q < tss.length := hlq ▸ (List.getElem?_eq_some_iff.mp hs).1
  have hts := List.getElem?_eq_getElem hqt
  have h4 := (forall₂_getElem?.mp hr2).2 q _ _ hs hts
  have h5 := (forall₂_getElem?.mp hb).2 q _ _ hs hts
  refine ⟨h5.length_eq.trans h4.length_eq, ?_⟩
  intro j t u ht hu
  have hj : j < (tss[q]).length := by
    rw [← h5.length_eq]
    exact (List.getElem?_eq_some_iff.mp ht).1
  obtain ⟨h6, h7⟩ := (forall₂_getElem?.mp h4).2 j _ u (List.getElem?_eq_getElem hj) hu
  have h8 : (tss[q])[j] = tdToken t (w (k + q) j) (ef.map (fun f => (f, extra (k + q) j f))) := by
    have h9 := congrArg (fun l => l[j]?) (hget q s _ hs hts)
    simp only [List.getElem?_map, List.getElem?_zipIdx,
      show (slice d.tokens s.start s.stop)[j]? = some t from ht, List.getElem?_eq_getElem hj] at h9
    simpa using h9
  rw [h8] at h6 h7
  exact tdToken_taken h6 h7

end Verif
