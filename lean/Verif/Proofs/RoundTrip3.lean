import Verif.Proofs.RoundTrip2
import Verif.Props.Datamodel3
import Verif.Props.Conllu2

/-!
# Reading what the writer wrote: documents
-/

namespace Verif

theorem spelled_sents {text : Str} {ss : List (List Token)} {sents : List (List Item)}
    (h : List.Forall₂ (Spelled text) ss sents) (hN : ∀ s ∈ ss, s.IsChain NumberedAfter)
    (hB : ∀ s ∈ ss, s.Pairwise Before) (h0 : ∀ s ∈ ss, ∀ t, s.head? = some t → t.sub = 0)
    {off : Nat} {toks' : List Token} (ht : ItemsTokens off sents.flatten toks') {pre : Str} (hpre : pre.length = off) :
    List.Forall₂ (SameRaw text (pre ++ surfaceText sents.flatten)) ss.flatten toks' := by
  induction h generalizing off toks' pre with
  | nil => cases ht; exact .nil
  | @cons s its ss sents h1 h2 ih =>
    rw [List.flatten_cons] at ht
    obtain ⟨x, y, rfl, hx, hy⟩ := ht.split
    have g1 := spelled_tokens h1 (hN s (by simp)) (hB s (by simp)) (h0 s (by simp)) hx
      (pre := pre) (post := surfaceText sents.flatten) hpre
    have g2 := ih (fun s hs => hN s (by simp [hs])) (fun s hs => hB s (by simp [hs]))
      (fun s hs => h0 s (by simp [hs])) hy (pre := pre ++ surfaceText its) (by simp [hpre])
    rw [List.flatten_cons, List.flatten_cons, surfaceText_append]
    refine List.rel_append (R := SameRaw text _) g1 ?_
    simpa [List.append_assoc] using g2

theorem slice_head? {α : Type} {l : List α} {a b : Nat} (h : a < b) : (slice l a b).head? = l[a]? := by
  rw [List.head?_eq_getElem?, slice_getElem?, if_pos (by omega)]; rfl

theorem first_subs {toks : List Token} (hN : toks.IsChain NumberedAfter) {ss : List Sentence} {a : Nat}
    (ht : Tiles a ss toks.length) (hE : ∀ s ∈ ss.dropLast, EndsRegular (slice toks s.start s.stop))
    (h0 : ∀ t, toks[a]? = some t → t.sub = 0) :
    ∀ s ∈ ss, ∀ t, (slice toks s.start s.stop).head? = some t → t.sub = 0 := by
  induction ss generalizing a with
  | nil => simp
  | cons s ss ih =>
    obtain ⟨hs, ht'⟩ := ht
    intro x hx t htx
    rcases List.mem_cons.mp hx with rfl | hx
    · rw [slice_head? x.lt, hs] at htx
      exact h0 t htx
    · have hne : ss ≠ [] := by rintro rfl; simp at hx
      have hlt := s.lt
      refine ih ht' ?_ ?_ x hx t htx
      · intro y hy
        refine hE y ?_
        rw [List.dropLast_cons_of_ne_nil hne]; simp [hy]
      · intro v hv
        have hE1 := hE s (by rw [List.dropLast_cons_of_ne_nil hne]; simp)
        obtain ⟨hlt2, hv'⟩ := List.getElem?_eq_some_iff.mp hv
        have hlast : (slice toks s.start s.stop).getLast? = some (toks[s.stop - 1]'(by omega)) := by
          rw [List.getLast?_eq_getElem?, slice_length, slice_getElem?, if_pos (by omega)]
          rw [List.getElem?_eq_some_iff]
          refine ⟨by omega, ?_⟩
          congr 1
          omega
        have hmem := List.mem_of_getLast? hlast
        have hnm : (toks[s.stop - 1]'(by omega)).isMultiword = false := by
          cases hm : (toks[s.stop - 1]'(by omega)).isMultiword with
          | false => rfl
          | true =>
            have := hE1 _ hlast _ hmem hm
            simp [Token.coincides] at this
        cases hvr : v.repl with
        | none => exact v.mwOk hvr
        | some r =>
          have := List.isChain_iff_getElem.mp hN (s.stop - 1) (by omega)
          have e : toks[s.stop - 1 + 1]'(by omega) = v := by
            rw [← hv']; congr 1; omega
          rw [e] at this
          refine (this (by rw [hvr]; rfl)).2 ?_
          rintro ⟨h, _⟩
          unfold Token.isMultiword at hnm
          rw [hnm] at h
          cases h

theorem Spelled.wordCount {text : Str} {toks : List Token} {its : List Item} (h : Spelled text toks its) :
    Verif.wordCount its = toks.length := by
  induction h with
  | nil => rfl
  | word _ _ _ _ ih =>
    simp [Verif.wordCount, Item.words] at ih ⊢; omega
  | multi _ _ _ _ _ h6 _ ih =>
    have := h6.length_eq
    simp [Verif.wordCount, Item.words] at this ih ⊢; omega

theorem spelled_bounds {text : Str} {toks : List Token} {ss : List Sentence} {sents : List (List Item)} {a : Nat}
    (h : List.Forall₂ (Spelled text) (ss.map fun s => slice toks s.start s.stop) sents)
    (ht : Tiles a ss toks.length) : Bounds a sents ss := by
  induction ss generalizing a sents with
  | nil => cases h; rfl
  | cons s ss ih =>
    cases h with
    | @cons _ its _ sents h1 h2 =>
      have hm := (Tiles.mem ht (s := s) (by simp))
      have hl := s.lt
      refine ⟨s, ss, rfl, ht.1, ?_, ih h2 ht.2⟩
      rw [h1.wordCount, slice_length, ← ht.1]
      omega

theorem itemsTokens_exists {cols : Cols} {lines : List (List Str)} {sents : List (List Item)}
    (h : List.Forall₂ (ItemLines cols) lines sents) (off : Nat) :
    ∃ ts, ItemsTokens off sents.flatten ts ∧ ∀ t ∈ ts, t.headDoc = none := by
  induction h generalizing off with
  | nil => exact ⟨[], rfl, by simp⟩
  | @cons l its ls sents h1 _ ih =>
    obtain ⟨x, hx, hxd, _⟩ := items_complete h1 (st := { text := List.replicate off ' ' }) rfl
    obtain ⟨y, hy, hyd⟩ := ih (off + (surfaceText its).length)
    simp only [List.length_replicate] at hx
    refine ⟨x ++ y, hx.append hy, ?_⟩
    intro t ht
    rcases List.mem_append.mp ht with ht | ht
    · exact hxd t ht
    · exact hyd t ht

theorem isTree_congr {ts ts' : List Token}
    (h : List.Forall₂ (fun t t' : Token => t.headSent = t'.headSent ∧ t.isRoot = t'.isRoot) ts ts')
    (ht : IsTree ts) : IsTree ts' := by
  have hl := h.length_eq
  have key : ∀ (i : Nat) (t : Token), ts[i]? = some t → ∃ t', ts'[i]? = some t' ∧ t.headSent = t'.headSent ∧ t.isRoot = t'.isRoot := by
    intro i t hi
    obtain ⟨hi1, rfl⟩ := List.getElem?_eq_some_iff.mp hi
    rw [List.forall₂_iff_get] at h
    exact ⟨_, List.getElem?_eq_getElem (hl ▸ hi1), h.2 i hi1 (hl ▸ hi1)⟩
  have key' : ∀ (i : Nat) (t' : Token), ts'[i]? = some t' → ∃ t, ts[i]? = some t ∧ t.headSent = t'.headSent ∧ t.isRoot = t'.isRoot := by
    intro i t' hi
    obtain ⟨hi1, rfl⟩ := List.getElem?_eq_some_iff.mp hi
    rw [List.forall₂_iff_get] at h
    exact ⟨_, List.getElem?_eq_getElem (hl ▸ hi1), h.2 i (hl ▸ hi1) hi1⟩
  obtain ⟨⟨r, ⟨t, h1, h2⟩, h3⟩, h4⟩ := ht
  refine ⟨⟨r, ?_, ?_⟩, ?_⟩
  · obtain ⟨t', k1, _, k3⟩ := key r t h1
    exact ⟨t', k1, k3 ▸ h2⟩
  · rintro j ⟨t', k1, k2⟩
    obtain ⟨u, l1, _, l3⟩ := key' j t' k1
    exact h3 j ⟨u, l1, l3 ▸ k2⟩
  · intro i hi
    have : ReachesRoot ts i := h4 i (by omega)
    clear hi
    induction this with
    | root g1 g2 =>
      obtain ⟨t', k1, _, k3⟩ := key _ _ g1
      exact .root k1 (k3 ▸ g2)
    | step g1 g2 g3 _ ih =>
      obtain ⟨t', k1, k2, k3⟩ := key _ _ g1
      exact .step k1 (k3 ▸ g2) (k2 ▸ g3) ih

/-- What reading back gives for one document. -/
structure ReadBack (d d' : Document) : Prop where
  sentences : d'.sentences = d.sentences
  words : List.Forall₂ (SameWord d.text d'.text) d.tokens d'.tokens
  extras : ∀ t ∈ d'.tokens, t.extras = Dict.empty
  headDoc : List.Forall₂ (fun t t' : Token => (t.isRoot = true → t.headDoc = some (-1)) → t.headDoc = t'.headDoc)
    d.tokens d'.tokens

theorem BuiltValid.trees {d : Document} (h : BuiltValid d) :
    ∀ s ∈ d.sentences, Headless (d.sentenceTokens s) ∨ IsTree (d.sentenceTokens s) := by
  obtain ⟨_, _, _, h⟩ := h
  exact (C07_validation_iff_forest.mp h).2

theorem Writable.sentence_facts {d : Document} (hw : Writable d) (hd : DocOk d) :
    (∀ s ∈ d.sentences.map d.sentenceTokens, s.IsChain NumberedAfter) ∧
    (∀ s ∈ d.sentences.map d.sentenceTokens, s.Pairwise Before) ∧
    (∀ s ∈ d.sentences.map d.sentenceTokens, ∀ t, s.head? = some t → t.sub = 0) := by
  have hsl : ∀ s ∈ d.sentences.map d.sentenceTokens, ∃ x ∈ d.sentences, s = slice d.tokens x.start x.stop := by
    intro s hs
    obtain ⟨x, hx, rfl⟩ := List.mem_map.mp hs
    exact ⟨x, hx, rfl⟩
  refine ⟨?_, ?_, ?_⟩
  · intro s hs
    obtain ⟨x, hx, rfl⟩ := hsl s hs
    rw [List.isChain_iff_getElem]
    intro i hi
    have hN := List.isChain_iff_getElem.mp hd.numbered (x.start + i) (by rw [slice_length] at hi; omega)
    have e : ∀ (j : Nat) (hj : j < (slice d.tokens x.start x.stop).length),
        (slice d.tokens x.start x.stop)[j] = d.tokens[x.start + j]'(by rw [slice_length] at hj; omega) := by
      intro j hj
      simp [slice]
    rw [e, e]
    exact hN
  · intro s hs
    obtain ⟨x, hx, rfl⟩ := hsl s hs
    exact hd.order.sublist (slice_sublist _ _ _)
  · intro s hs t ht
    obtain ⟨x, hx, rfl⟩ := hsl s hs
    refine first_subs hd.numbered hd.tiles hw.ends ?_ x hx t ht
    intro t ht
    exact hw.first t (by rw [List.head?_eq_getElem?]; exact ht)

theorem doc_readBack {cols : Cols} {d : Document} (hb : BuiltValid d) (hw : Writable d) {lines : List (List Str)}
    {sents : List (List Item)} (hl : List.Forall₂ (ItemLines cols) lines sents)
    (hsp : List.Forall₂ (Spelled d.text) (d.sentences.map d.sentenceTokens) sents) :
    ∃ d', DocRaw sents d' ∧ ReadBack d d' := by
  have hd := hb.built.docOk
  have hflat : (d.sentences.map d.sentenceTokens).flatten = d.tokens := by
    have := tiles_flatten d.tokens hd.tiles
    rw [slice_zero_length] at this
    exact this
  obtain ⟨toks, htok, hnone⟩ := itemsTokens_exists hl 0
  obtain ⟨f1, f2, f3⟩ := hw.sentence_facts hd
  have hraw := spelled_sents hsp f1 f2 f3 htok (pre := []) rfl
  rw [hflat, List.nil_append] at hraw
  have hlen := hraw.length_eq
  have hbounds := spelled_bounds hsp hd.tiles
  have hwords : ∀ it ∈ sents.flatten, it.words ≠ [] := by
    intro it hit
    obtain ⟨its, hits, hit⟩ := List.mem_flatten.mp hit
    obtain ⟨l, _, h1⟩ := forall₂_exists_left hl hits
    exact h1.words_ne it hit
  have hne : toks ≠ [] := by
    intro e; rw [e] at hlen
    exact hw.ne (List.length_eq_zero_iff.mp hlen)
  obtain ⟨d', hd'⟩ := (C04_accepts_iff (text := surfaceText sents.flatten) (sents := d.sentences) hne).mpr
    ⟨toks, d.sentences, .refl _, .refl _, htok.before.1, fun i hi => List.isChain_iff_getElem.mp (htok.numbered hwords).1 i hi,
      hlen ▸ hd.tiles, by
        intro s _ j hj _ _ a b _ hb
        rw [hnone _ (List.getElem_mem hj)] at hb
        cases hb⟩
  have hok := new_docOk hd'
  obtain ⟨_, _, _, _, etext, eS, _⟩ := (Document.new_ok_iff hne).mp hd'
  have hsort := pySorted_before htok.before.1
  rw [sortedSentences_of_ne hne, pySorted_eq_self sentLe hd.tiles.sorted] at eS
  obtain ⟨hl2, hfill⟩ := new_tokens hne hd'
  rw [hsort, eS] at hfill
  -- token by token
  have htoken : ∀ (j : Nat) (t t' : Token), d.tokens[j]? = some t → d'.tokens[j]? = some t' →
      SameWord d.text d'.text t t' ∧ t'.extras = Dict.empty ∧
      ((t.isRoot = true → t.headDoc = some (-1)) → t.headDoc = t'.headDoc) := by
    intro j t t' hj hj'
    obtain ⟨hj1, e1⟩ := List.getElem?_eq_some_iff.mp hj
    obtain ⟨s, hs, c1, c2⟩ := hd.tiles.cover (Nat.zero_le j) hj1
    obtain ⟨r, r', g1, g2, g3⟩ := hfill s hs j c1 c2
    rw [hj'] at g2
    injection g2 with g2
    subst g2
    obtain ⟨hjr, er⟩ := List.getElem?_eq_some_iff.mp g1
    have hr : SameRaw d.text (surfaceText sents.flatten) t r := by
      have := (List.forall₂_iff_get.mp hraw).2 j hj1 hjr
      simp only [List.get_eq_getElem] at this
      rwa [e1, er] at this
    have hrn : r.headDoc = none := hnone r (List.mem_of_getElem? g1)
    have hhs := g3.headSent hrn
    obtain ⟨s1, s2, s3, s4, s5, s6, s7, s8⟩ := g3.same
    have hcan := hd.canon s hs j t c1 c2 hj
    have hroot : t.isRoot = t'.isRoot ∧ ((t.isRoot = true → t.headDoc = some (-1)) → t.headDoc = t'.headDoc) := by
      have hth := (hw.token t (List.mem_of_getElem? hj)).head
      cases g3 with
      | none k1 k2 => exact absurd (hr.headSent.trans k1) hth
      | root k =>
        simp only [hrn, reduceCtorEq, or_false] at k
        rw [← hr.headSent] at k
        constructor
        · simp [Token.isRoot, k]
        · intro h
          rw [h (by simp [Token.isRoot, k])]
      | @sent v k1 k2 k3 =>
        rw [← hr.headSent] at k1
        have hdoc : t.headDoc = some (v + s.start) := by
          rcases hcan with ⟨a, _⟩ | ⟨a, _⟩ | ⟨w, a, b⟩
          · rw [k1] at a; cases a
          · rw [k1] at a; injection a with a; exact absurd a k2
          · rw [k1] at a; injection a with a; rw [b, a]
        exact ⟨by simp [Token.isRoot, hdoc, k1], fun _ => hdoc⟩
      | doc k1 _ _ => rw [hrn] at k1; cases k1
    refine ⟨⟨?_, ?_, by rw [hr.sub, s3], by rw [hr.repl, s4], by rw [← s5]; exact hr.pos, by rw [hr.lemma', s6],
      by rw [hr.deprel, s7], by rw [hr.headSent, hhs], hroot.1⟩, by rw [← s8]; exact hr.extras, hroot.2⟩
    · rw [hr.form, etext]; unfold tokText; rw [s4, docText_congr s1.symm s2.symm]
    · rw [hr.surface, etext]; exact (docText_congr s1.symm s2.symm).symm
  have hl3 : d.tokens.length = d'.tokens.length := by omega
  have hf : ∀ {R : Token → Token → Prop}, (∀ (j : Nat) (t t' : Token), d.tokens[j]? = some t → d'.tokens[j]? = some t' → R t t') →
      List.Forall₂ R d.tokens d'.tokens := by
    intro R h
    rw [List.forall₂_iff_get]
    exact ⟨hl3, fun j hj hj' => h j _ _ (List.getElem?_eq_getElem hj) (List.getElem?_eq_getElem hj')⟩
  have hwordsF := hf (fun j t t' h h' => (htoken j t t' h h').1)
  refine ⟨d', ⟨toks, d.sentences, htok, hnone, hbounds, ?_⟩, eS, hwordsF, ?_, hf (fun j t t' h h' => (htoken j t t' h h').2.2)⟩
  · refine C07_validation_iff_forest.mpr ⟨hd', ?_⟩
    rw [eS]
    intro s hs
    right
    have htree : IsTree (d.sentenceTokens s) := by
      rcases hb.trees s hs with h | h
      · exfalso
        have hlt := s.lt
        have hm := hd.tiles.mem hs
        have hin : d.tokens[s.start]'(by omega) ∈ d.sentenceTokens s :=
          mem_slice.mpr ⟨s.start, by omega, by omega, List.getElem?_eq_getElem _⟩
        exact (hw.token _ (List.getElem_mem _)).head (h _ hin).2
      · exact h
    refine isTree_congr ?_ htree
    unfold Document.sentenceTokens
    exact List.forall₂_take _ (List.forall₂_drop _ (hwordsF.imp fun _ _ h => ⟨h.headSent, h.isRoot⟩))
  · intro t' ht'
    obtain ⟨j, hj, rfl⟩ := List.mem_iff_getElem.mp ht'
    exact (htoken j _ _ (List.getElem?_eq_getElem (hl3 ▸ hj)) (List.getElem?_eq_getElem hj)).2.1

end Verif
