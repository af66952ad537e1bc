import Verif.Proofs.Tdozat

/-! # Answers of any length -/

namespace Verif

/-- `b` corresponds to the beginning of `a`. -/
def PartR {α β : Type} (R : α → β → Prop) (a : List α) (b : List β) : Prop :=
  b.length ≤ a.length ∧ List.Forall₂ R (a.take b.length) b

theorem partR_flatten {α β : Type} {R : α → β → Prop} {as : List (List α)} {bs : List (List β)}
    (h : List.Forall₂ (PartR R) as bs) :
    bs.flatten.length ≤ as.flatten.length ∧
    (bs.flatten.length = as.flatten.length → List.Forall₂ R as.flatten bs.flatten) := by
  induction h with
  | nil => exact ⟨by simp, fun _ => by simp⟩
  | @cons a b as bs h1 _ ih =>
    simp only [List.flatten_cons, List.length_append]
    have := h1.1
    refine ⟨by omega, fun he => ?_⟩
    have h2 := h1.2
    rw [List.take_of_length_le (by omega)] at h2
    exact List.rel_append h2 (ih.2 (by omega))

theorem fromDocument_short {d d' : Document} (hd : DocOk d) {ts : List Token}
    (h : d.fromDocument ts = .ok d') :
    (ts = [] ∧ d' = ⟨d.text, [], []⟩) ∨ ts.length = d.tokens.length := by
  by_cases hne : ts = []
  · left
    subst hne
    rw [C10_empty_list_drops_everything] at h
    injection h with h
    exact ⟨rfl, h.symm⟩
  · right
    unfold Document.fromDocument at h
    simp only at h
    split at h
    · cases h
    · have hne' : pySorted tokLe ts ≠ [] := by
        intro h0
        have := congrArg List.length h0
        rw [(pySorted_perm tokLe _).length_eq, List.length_nil] at this
        exact hne (List.length_eq_zero_iff.mp this)
      obtain ⟨_, _, hT, _⟩ := (Document.new_ok_iff hne').mp h
      rw [sortedSentences_of_ne hne', pySorted_eq_self sentLe hd.tiles.sorted,
        (pySorted_perm tokLe _).length_eq] at hT
      have e1 := hT.lastStop
      have e2 := hd.tiles.lastStop
      omega

theorem fromUd_part {ts us : List Token} {ws : List UdWord} (h : fromUd ts ws = .ok us) :
    PartR (fun t u : Token => SamePlace t u ∧ SameSpan t u ∧ u.headDoc = none) ts us := by
  unfold fromUd at h
  rw [mapM'_ok_iff] at h
  have hl := h.length_eq
  rw [List.length_zip] at hl
  refine ⟨by omega, ?_⟩
  have h2 := forall₂_getElem?.mp h
  rw [forall₂_getElem?]
  refine ⟨by rw [List.length_take]; omega, fun j t u ht hu => ?_⟩
  have hj := (List.getElem?_eq_some_iff.mp hu).1
  rw [List.getElem?_take, if_pos hj] at ht
  have hjw : j < ws.length := by omega
  have h3 : (ts.zip ws)[j]? = some (t, ws[j]) := by
    rw [List.getElem?_zip_eq_some]
    exact ⟨ht, List.getElem?_eq_getElem hjw⟩
  have h4 := h2.2 _ _ _ h3 hu
  rw [fromUdWord_eq] at h4
  cases hf : udParseFeats ws[j].feats with
  | error e => rw [hf] at h4; cases h4
  | ok f =>
    rw [hf] at h4
    injection h4 with h4
    subst h4
    exact ⟨⟨rfl, rfl, rfl, rfl, rfl⟩, ⟨rfl, rfl, rfl, rfl⟩, rfl⟩

theorem udProcess_structure {pipe : List UdWord → Res (List UdWord)} {d d' : Document} (hd : DocOk d)
    (h : udProcess pipe d = .ok d') :
    (d'.text = d.text ∧ d'.sentences = d.sentences ∧ List.Forall₂ SamePlace d.tokens d'.tokens) ∨
    (d'.text = d.text ∧ d'.tokens = [] ∧ d'.sentences = []) := by
  unfold udProcess at h
  cases hm : mapM' (udSentence pipe d) d.sentences with
  | error e => rw [hm] at h; cases h
  | ok tss =>
    rw [hm] at h
    simp only at h
    have hp : List.Forall₂ (PartR (fun t u : Token => SamePlace t u ∧ SameSpan t u ∧ u.headDoc = none))
        (d.sentences.map (fun s => slice d.tokens s.start s.stop)) tss := by
      rw [List.forall₂_map_left_iff]
      refine (mapM'_ok_iff.mp hm).imp (fun s us hs => ?_)
      unfold udSentence at hs
      split at hs
      · cases hs
      · exact fromUd_part hs
    obtain ⟨_, hp2⟩ := partR_flatten hp
    rw [tiles_flatten d.tokens (a := 0) hd.tiles, slice_zero_length] at hp2
    rcases fromDocument_short hd h with ⟨_, rfl⟩ | hlen
    · exact Or.inr ⟨rfl, rfl, rfl⟩
    · left
      have h3 := hp2 hlen
      obtain ⟨r, hr, h4⟩ := fromDocument_sentHeads hd (h3.imp (fun _ _ hab => hab.2.1)) (by
        intro t ht
        obtain ⟨_, _, h5⟩ := forall₂_mem_right h3 ht
        exact h5.2.2)
      rw [hr] at h
      injection h with h
      subst h
      refine ⟨rfl, rfl, ?_⟩
      rw [forall₂_getElem?] at h3 h4 ⊢
      refine ⟨h3.1.trans h4.1, fun j a c ha hc => ?_⟩
      have hj : j < tss.flatten.length := h3.1 ▸ (List.getElem?_eq_some_iff.mp ha).1
      have hb := List.getElem?_eq_getElem hj
      obtain ⟨h6, _, _⟩ := h3.2 j a _ ha hb
      obtain ⟨⟨e1, e2, e3, e4, _, _, _, e8⟩, _⟩ := h4.2 j _ c hb hc
      exact ⟨e1.symm.trans h6.start, e2.symm.trans h6.stop, e3.symm.trans h6.sub, e4.symm.trans h6.repl,
        e8.symm.trans h6.extras⟩

end Verif
