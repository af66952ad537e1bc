import Verif.Proofs.Built
import Verif.Props.Datamodel

/-! # The text of a sentence: C74 -/

namespace Verif

/-- C74: the text of a sentence of a constructed document runs from the start of its first token to the
end of its last one, and the text of every token of the sentence is found in it at the token's
position, counted from the first token. -/
theorem C74_sentence_text {d : Document} (hb : Built d) {i : Nat} {sn : Sentence}
    (hi : d.sentences[i]? = some sn) :
    ∃ (s : NavSentence) (a b : Token), d.getSentence i = .ok s ∧ d.tokens[sn.start]? = some a ∧
      d.tokens[sn.stop - 1]? = some b ∧ s.text = .ok ((d.text.take b.stop).drop a.start) ∧
      ∀ (j : Nat) (t : Token), sn.start ≤ j → j < sn.stop → d.tokens[j]? = some t →
        s.tokens[j - sn.start]? = some t ∧ a.start ≤ t.start ∧ t.stop ≤ b.stop ∧
        docText d.text t =
          (((d.text.take b.stop).drop a.start).drop (t.start - a.start)).take (t.stop - t.start) := by
  have hd := hb.docOk
  have hil := (List.getElem?_eq_some_iff.mp hi).1
  have hmem := List.mem_of_getElem? hi
  have hle := hd.stop_le hmem
  have hlt := sn.lt
  have hw := wordList_slice hd sn.start sn.stop
  have hget : d.getSentence i = .ok ⟨d, slice d.tokens sn.start sn.stop, ⟨d.sentences.length, i⟩⟩ := by
    unfold Document.getSentence
    rw [pyGet_nat_ok.mpr hi]
    simp only [hw]
    unfold Nav.new
    rw [if_neg (by omega), if_neg (by omega)]
    have : ((i : Int) % (d.sentences.length : Int)).toNat = i := by
      rw [Int.emod_eq_of_lt (by omega) (by omega)]; simp
    simp [this]
  have ha : d.tokens[sn.start]? = some d.tokens[sn.start] := List.getElem?_eq_getElem (by omega)
  have hbt : d.tokens[sn.stop - 1]? = some d.tokens[sn.stop - 1] := List.getElem?_eq_getElem (by omega)
  refine ⟨_, d.tokens[sn.start], d.tokens[sn.stop - 1], hget, ha, hbt, ?_, ?_⟩
  · unfold NavSentence.text
    have h1 : (slice d.tokens sn.start sn.stop).head? = some d.tokens[sn.start] := by
      rw [List.head?_eq_getElem?, slice_getElem?, if_pos (by omega)]
      simpa using ha
    have h2 : (slice d.tokens sn.start sn.stop).getLast? = some d.tokens[sn.stop - 1] := by
      rw [List.getLast?_eq_getElem?, slice_length, slice_getElem?, if_pos (by omega), ← hbt]
      congr 1; omega
    simp only [h1, h2]
    unfold slice
    rw [List.drop_take]
  · intro j t h1 h2 h3
    obtain ⟨hj, rfl⟩ := List.getElem?_eq_some_iff.mp h3
    have hle1 : d.tokens[sn.start].start ≤ d.tokens[j].start := by
      rcases Nat.lt_or_eq_of_le h1 with h | h
      · have := List.pairwise_iff_getElem.mp hd.order _ _ (by omega) hj h
        have hlt := d.tokens[sn.start].lt
        unfold Before at this; omega
      · subst h; exact Nat.le_refl _
    have hle2 : d.tokens[j].stop ≤ d.tokens[sn.stop - 1].stop := by
      rcases Nat.lt_or_ge j (sn.stop - 1) with h | h
      · have := List.pairwise_iff_getElem.mp hd.order _ _ hj (by omega) h
        have hlt := d.tokens[sn.stop - 1].lt
        unfold Before at this; omega
      · have : j = sn.stop - 1 := by omega
        subst this; exact Nat.le_refl _
    refine ⟨?_, hle1, hle2, ?_⟩
    · rw [slice_getElem?, if_pos (by omega), ← h3]
      congr 1; omega
    · unfold docText slice
      rw [List.drop_drop, List.drop_take, List.take_take]
      have e1 : d.tokens[sn.start].start + (d.tokens[j].start - d.tokens[sn.start].start) =
        d.tokens[j].start := by omega
      rw [e1]
      congr 1
      have := d.tokens[j].lt
      omega

example : (Demo.doc.getSentence 1).toOption.map NavSentence.text = some (.ok "cd e".toList) := by
  decide +kernel

end Verif
