import Verif.Props.InterchangePipeline
import Verif.Props.Wrappers

/-! # C170: equal documents and UDPipe -/

namespace Verif

theorem udFeats_same {d e : Dict Str Str} (h : SameMap d e) : udFeats d = udFeats e := by
  have hp : d.entries.Perm e.entries := Dict.pyEq_perm.mp (Dict.pyEq_iff.mpr h)
  by_cases hd : d.entries = []
  · have he : e.entries = [] := by rw [hd] at hp; exact hp.symm.eq_nil
    simp [udFeats, hd, he]
  · exact udFeats_congr h hd

theorem toUd_congr {a b : Token} (h : SameButSentHead a b) (text : Str) : toUd text a = toUd text b := by
  unfold toUd
  have ht : tokText text a = tokText text b := by simp only [tokText, docText, h.start, h.stop, h.repl]
  rw [ht, h.lemma']
  have hp := h.pos
  generalize a.pos = x at hp
  generalize b.pos = y at hp
  cases hp with
  | none => rfl
  | some hp => simp only [hp.1, hp.2.1, udFeats_same hp.2.2]

theorem udInput_congr {x y : Document} (h : x.pyEq y = true) (s : Sentence) :
    (x.sentenceTokens s).map (toUd x.text) = (y.sentenceTokens s).map (toUd y.text) := by
  obtain ⟨h1, h2, _⟩ := Document.pyEq_iff.1 h
  have h3 : x.tokens.map (toUd x.text) = y.tokens.map (toUd y.text) := by
    rw [h1]
    clear h h1
    generalize x.tokens = l at *
    generalize y.tokens = m at *
    induction h2 with
    | nil => rfl
    | cons r _ ih => rw [List.map_cons, List.map_cons, toUd_congr r, ih]
  unfold Document.sentenceTokens
  rw [List.map_take, List.map_drop, List.map_take, List.map_drop, h3]

/-- Heads in documents that come back from UDPipe. -/
theorem udProcess_heads {pipe : List UdWord → Res (List UdWord)} {d d' : Document} (h : udProcess pipe d = .ok d') :
    ∀ s ∈ d'.sentences, ∀ (j : Nat) u, s.start ≤ j → j < s.stop → d'.tokens[j]? = some u →
      u.headDoc = u.headSent.map fun a => if a = -1 then -1 else a + (s.start : Int) := by
  unfold udProcess at h
  split at h
  · cases h
  · rename_i tss hm
    have hnone : ∀ u ∈ tss.flatten, u.headDoc = none := by
      intro u hu
      obtain ⟨us, hus, hu⟩ := List.mem_flatten.1 hu
      obtain ⟨s, _, hs⟩ := forall₂_mem_right (mapM'_ok_iff.mp hm) hus
      unfold udSentence at hs
      split at hs
      · cases hs
      · obtain ⟨p, _, hp⟩ := forall₂_mem_right (mapM'_ok_iff.mp hs) hu
        rw [fromUdWord_eq] at hp
        split at hp
        · cases hp
        · injection hp with hp
          rw [← hp]
          rfl
    unfold Document.fromDocument at h
    simp only at h
    split at h
    · cases h
    · obtain ⟨l, hl, _, _, hh⟩ := C06_heads_agree h
      intro s hs j u h1 h2 hu
      obtain ⟨t0, t, e1, e2, _, a1, a2, a3⟩ := hh s hs j h1 h2
      rw [hu] at e2
      injection e2 with e2
      subst e2
      have hn : t0.headDoc = none := hnone t0 ((pySorted_perm _ _).mem_iff.1 (hl.mem_iff.1 (List.mem_of_getElem? e1)))
      cases hroot : t0.isRoot with
      | true => obtain ⟨r1, r2⟩ := a2 hroot; rw [r1, r2]; rfl
      | false =>
        cases hhas : t0.hasHead with
        | false => obtain ⟨r1, r2⟩ := a1 hhas; rw [r1, r2]; rfl
        | true =>
          obtain ⟨a, r1, r2, r3, _⟩ := a3 hhas hroot
          rw [r1, r2]
          have ha : t0.headSent = some a := by
            cases hsent : t0.headSent with
            | none => simp [Token.hasHead, hn, hsent] at hhas
            | some b => rw [r3 b hsent]
          have : a ≠ -1 := by
            rintro rfl
            simp [Token.isRoot, ha] at hroot
          simp [this]

/-- C170: processing with UDPipe makes equal documents of equal documents or fails on both in the same way, if the model
gives one word for each word, with features that can be read, whenever it succeeds. -/
theorem C170_udpipe_respects (pipe : List UdWord → Res (List UdWord))
    (hpipe : ∀ ws rs, pipe ws = .ok rs → UdAnswer ws.length rs) : RespectsEqual (udProcessAll pipe) := by
  refine mapM'_respects (fun x y hx hy h => ?_) (fun x e h => ?_)
  · obtain ⟨q1, q2, q3⟩ := Document.pyEq_iff.1 h
    by_cases hall : ∀ s ∈ x.sentences, ∃ ws, pipe ((x.sentenceTokens s).map (toUd x.text)) = .ok ws
    · have len : ∀ {z : Document}, Built z → ∀ s ∈ z.sentences, ((z.sentenceTokens s).map (toUd z.text)).length = s.stop - s.start := by
        intro z hz s hs
        rw [List.length_map]
        show (slice z.tokens s.start s.stop).length = _
        rw [slice_length]
        have := (hz.docOk.tiles.mem hs).2
        omega
      have hxs : ∀ s ∈ x.sentences, ∃ ws, pipe ((x.sentenceTokens s).map (toUd x.text)) = .ok ws ∧
          UdAnswer (s.stop - s.start) ws := by
        intro s hs
        obtain ⟨ws, hw⟩ := hall s hs
        exact ⟨ws, hw, len hx s hs ▸ hpipe _ _ hw⟩
      have hys : ∀ s ∈ y.sentences, ∃ ws, pipe ((y.sentenceTokens s).map (toUd y.text)) = .ok ws ∧
          UdAnswer (s.stop - s.start) ws := by
        intro s hs
        rw [← udInput_congr h]
        exact hxs s (q3 ▸ hs)
      obtain ⟨x', a1, a2, a3, a4⟩ := udProcess_total hx.docOk hxs
      obtain ⟨y', b1, b2, b3, b4⟩ := udProcess_total hy.docOk hys
      refine .inl ⟨x', y', a1, b1, ?_⟩
      have bx : Built x' := by
        have := a1
        unfold udProcess at this
        split at this
        · cases this
        · exact fromDocument_built this
      have by' : Built y' := by
        have := b1
        unfold udProcess at this
        split at this
        · cases this
        · exact fromDocument_built this
      have tokLen : ∀ {z z' : Document}, Built z → Built z' → z'.sentences = z.sentences → z'.tokens.length = z.tokens.length := by
        intro z z' hz hz' hs
        have t2 := hz'.docOk.tiles
        rw [hs] at t2
        exact t2.end_unique hz.docOk.tiles
      refine Document.pyEq_iff.2 ⟨by rw [a2, b2, q1], ?_, by rw [a3, b3, q3]⟩
      have lx := tokLen hx bx a3
      have ly := tokLen hy by' b3
      rw [List.forall₂_iff_get] at q2 ⊢
      refine ⟨by rw [lx, ly, q2.1], fun i hi hi' => ?_⟩
      simp only [List.get_eq_getElem] at q2 ⊢
      have hix : i < x.tokens.length := lx ▸ hi
      have hiy : i < y.tokens.length := ly ▸ hi'
      have r := q2.2 i hix hiy
      obtain ⟨s, hs, c1, c2⟩ := hx.docOk.tiles.cover (Nat.zero_le i) hix
      obtain ⟨ws, p1, _, p2⟩ := a4 s hs
      obtain ⟨ws', p3, _, p4⟩ := b4 s (q3 ▸ hs)
      rw [← udInput_congr h, p1] at p3
      injection p3 with p3
      subst p3
      have hwl : i - s.start < ws.length := by
        rw [(hpipe _ _ p1).1, len hx s hs]
        omega
      have hsl : ∀ (z : Document) (hz : i < z.tokens.length), (z.sentenceTokens s)[i - s.start]? = some z.tokens[i] := by
        intro z hz
        show (slice z.tokens s.start s.stop)[i - s.start]? = _
        rw [slice_getElem?, if_pos (by omega), show s.start + (i - s.start) = i by omega]
        exact List.getElem?_eq_getElem hz
      have u1 := p2 _ _ _ _ (hsl x hix) (List.getElem?_eq_getElem hwl) (hsl x' hi)
      have u2 := p4 _ _ _ _ (hsl y hiy) (List.getElem?_eq_getElem hwl) (hsl y' hi')
      have v1 := udProcess_heads a1 s (a3 ▸ hs) i _ c1 c2 (List.getElem?_eq_getElem hi)
      have v2 := udProcess_heads b1 s (b3 ▸ q3 ▸ hs) i _ c1 c2 (List.getElem?_eq_getElem hi')
      generalize ws[i - s.start] = w at u1 u2
      refine ⟨by rw [u1.place.start, u2.place.start, r.start], by rw [u1.place.stop, u2.place.stop, r.stop], ?_,
        by rw [u1.lemma', u2.lemma'], by rw [u1.deprel, u2.deprel], by rw [u1.place.sub, u2.place.sub, r.sub],
        by rw [u1.place.repl, u2.place.repl, r.repl], by rw [v1, v2, u1.head, u2.head], ?_⟩
      · by_cases hw : w.upostag ≠ [] ∨ w.xpostag ≠ [] ∨ w.feats ≠ []
        · obtain ⟨p, e1, e2, e3, e4⟩ := u1.pos hw
          obtain ⟨p', f1, f2, f3, f4⟩ := u2.pos hw
          rw [e1, f1]
          exact .some ⟨by rw [e2, f2], by rw [e3, f3], fun k => e4.unique f4 k⟩
        · simp only [not_or, not_not] at hw
          rw [u1.noPos hw.1 hw.2.1 hw.2.2, u2.noPos hw.1 hw.2.1 hw.2.2]
          exact .none
      · rw [u1.place.extras, u2.place.extras]
        exact r.extras
    · have hrel : OutRel (List.Forall₂ fun _ _ => True) (mapM' (udSentence pipe x) x.sentences)
          (mapM' (udSentence pipe y) y.sentences) := by
        rw [← q3]
        refine mapM'_outRel (List.forall₂_same.2 fun s hs => ?_)
        unfold udSentence
        have hc := udInput_congr h s
        unfold Document.sentenceTokens at hc
        unfold slice
        rw [← hc]
        cases hp : pipe (((x.tokens.drop s.start).take (s.stop - s.start)).map (toUd x.text)) with
        | error e => exact .error e
        | ok ws =>
          have ha := hpipe _ _ hp
          obtain ⟨us, e1, _⟩ := fromUd_total (ts := (x.tokens.drop s.start).take (s.stop - s.start)) (by simpa using ha)
          have ha' := ha
          rw [hc] at ha'
          obtain ⟨us', e2, _⟩ := fromUd_total (ts := (y.tokens.drop s.start).take (s.stop - s.start)) (by simpa using ha')
          simp only [e1, e2]
          exact .ok trivial
      rcases hrel.elim with ⟨as, bs, e1, _, _⟩ | ⟨e, e1, e2⟩
      · exfalso
        apply hall
        intro s hs
        obtain ⟨us, _, hus⟩ := forall₂_mem_left (mapM'_ok_iff.mp e1) hs
        unfold udSentence at hus
        split at hus
        · cases hus
        · exact ⟨_, by assumption⟩
      · refine .inr ⟨e, ?_, ?_⟩
        · unfold udProcess; rw [e1]
        · unfold udProcess; rw [e2]
  · unfold udProcess at h
    split at h
    · cases h
    · exact fromDocument_built h

example : RespectsEqual (udProcessAll fun ws => .ok (ws.map fun w => { w with upostag := ['N'], head := 0, feats := [] })) :=
  C170_udpipe_respects _ fun ws rs h => by
    injection h with h
    subst h
    refine ⟨by simp, fun w hw hf => ?_⟩
    obtain ⟨_, _, rfl⟩ := List.mem_map.1 hw
    exact absurd rfl hf

end Verif
