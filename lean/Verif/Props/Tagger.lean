import Verif.Proofs.Tagger
import Verif.Props.Interpreters

/-! # C133: a tagger looks at the words of a sentence only -/

namespace Verif

section
variable {F : Type} (lower : Str → Str) (float : Str → Res F) (zero : F) (other : TextToken) (seen : Seen)
  (ps : List Provider) (net : Features → Res Features)

/-- C133: for sentences of the same words the network is asked the same, whatever the annotation of the words, the rest of
the documents and the position of the sentences in them. -/
theorem C133_prediction (d d' : Document) (s s' : Sentence) (h : SameWords d s d' s') :
    predictSentence lower float zero other seen ps net d s =
      predictSentence lower float zero other seen ps net d' s' := by
  unfold predictSentence
  rcases (assemble_rel (lower := lower) (float := float) (zero := zero) (seen := seen) (ps := ps)
    (sp := keepAll) (sp' := keepAll) (h.docTok other) (fun _ _ _ _ _ _ => rfl)).elim with
    ⟨r, r', e1, e2, hr⟩ | ⟨e, e1, e2⟩
  · rw [e1, e2]
    simp only [hr (sentenceBatch s) (sentenceBatch s') ⟨rfl, rfl⟩]
  · rw [e1, e2]

/-- C133: the tagged sentences have the same tags and lemmas; if one cannot be tagged, neither can the other. -/
theorem C133_sentence (i : Interp) (hi : assembleInterp lower seen ps = .ok i) (d d' : Document) (s s' : Sentence)
    (h : SameWords d s d' s') :
    SameOutcome (List.Forall₂ (fun t t' : TextToken => SamePrediction ps t.2 t'.2))
      (predictAndInterpret lower i (predictSentence lower float zero other seen ps net) d s)
      (predictAndInterpret lower i (predictSentence lower float zero other seen ps net) d' s') := by
  obtain ⟨ws, rfl, hw⟩ := assembleInterp_ok hi
  unfold predictAndInterpret
  rw [C133_prediction lower float zero other seen ps net d d' s s' h]
  cases predictSentence lower float zero other seen ps net d' s' with
  | error e => exact .inr ⟨e, rfl, rfl⟩
  | ok pred =>
    refine ((interpretSentence_rel ws h.slice pred).imp ?_).outcome
    intro a b hab
    exact hab.imp (fun t t' ht => ⟨fun hp => ht.pos (labelInterps_tags hw hp),
      fun hl => ht.lemma' (labelInterps_lemmas hw hl)⟩)

/-- C133: documents of the same sentences, differently annotated or differently laid out, are tagged in the same way, or
fail in the same way. -/
theorem C133_document (d d' : Document) (hd : Built d) (hd' : Built d')
    (h : List.Forall₂ (fun s s' => SameWords d s d' s') d.sentences d'.sentences) :
    SameOutcome (fun e e' : Document => List.Forall₂ (SamePrediction ps) e.tokens e'.tokens)
      (trainedTag lower float zero other seen ps net d) (trainedTag lower float zero other seen ps net d') := by
  unfold trainedTag
  cases hi : assembleInterp lower seen ps with
  | error e => exact .inr ⟨e, rfl, rfl⟩
  | ok i =>
    have hs : List.Forall₂ (fun s s' => OutRel (List.Forall₂ (fun t t' : TextToken => SamePrediction ps t.2 t'.2))
        (predictAndInterpret lower i (predictSentence lower float zero other seen ps net) d s)
        (predictAndInterpret lower i (predictSentence lower float zero other seen ps net) d' s'))
        d.sentences d'.sentences := h.imp (fun s s' hss => by
      rcases C133_sentence lower float zero other seen ps net i hi d d' s s' hss with ⟨a, b, e1, e2, hab⟩ | ⟨e, e1, e2⟩
      · rw [e1, e2]; exact .ok hab
      · rw [e1, e2]; exact .error e)
    obtain ⟨ws, rfl, hw⟩ := assembleInterp_ok hi
    simp only [tagDocument]
    rcases (mapM'_outRel hs).elim with ⟨tss, tss', e1, e2, hss⟩ | ⟨e, e1, e2⟩
    rotate_left
    · rw [e1, e2]
      exact .inr ⟨e, rfl, rfl⟩
    rw [e1, e2]
    simp only
    rw [mapM'_ok_iff] at e1 e2
    have hp : List.Forall₂ PartOf (d.sentences.map (fun s => slice d.textTokens s.start s.stop)) tss := by
      rw [List.forall₂_map_left_iff]
      exact e1.imp (fun _ _ h => predictAndInterpret_part h)
    have hp' : List.Forall₂ PartOf (d'.sentences.map (fun s => slice d'.textTokens s.start s.stop)) tss' := by
      rw [List.forall₂_map_left_iff]
      exact e2.imp (fun _ _ h => predictAndInterpret_part h)
    have hflat : List.Forall₂ (fun t t' : TextToken => SamePrediction ps t.2 t'.2) tss.flatten tss'.flatten := by
      clear e1 e2 hp hp'
      induction hss with
      | nil => exact .nil
      | cons h1 _ ih => exact List.rel_append h1 ih
    have hn : d.tokens.length = d'.tokens.length := by
      have h0 : (d.textTokens).length = d'.textTokens.length := by
        rw [← textTokens_flatten hd.docOk, ← textTokens_flatten hd'.docOk, List.length_flatten, List.length_flatten]
        congr 1
        rw [List.map_map, List.map_map]
        exact List.forall₂_eq_eq_eq ▸ List.forall₂_map_left_iff.2 (List.forall₂_map_right_iff.2
          (h.imp (fun s s' hss => hss.slice.length_eq)))
      simpa [Document.textTokens] using h0
    have hfl := hflat.length_eq
    rcases fromDocument_of_parts hd hp with ⟨hl, e, he, hrel⟩ | ⟨hl, hnil, he⟩ | ⟨hl, hne, he⟩
    · rcases fromDocument_of_parts hd' hp' with ⟨hl', e', he', hrel'⟩ | ⟨hl', _, _⟩ | ⟨hl', _, _⟩
      · refine .inl ⟨e, e', he, he', ?_⟩
        rw [List.forall₂_iff_get] at hflat hrel hrel' ⊢
        refine ⟨by rw [← hrel.1, ← hrel'.1, hflat.1], fun j h1 h2 => ?_⟩
        have a := hrel.2 j (hrel.1 ▸ h1) h1
        have b := hrel'.2 j (hrel'.1 ▸ h2) h2
        have c := hflat.2 j (hrel.1 ▸ h1) (hrel'.1 ▸ h2)
        exact ⟨fun hp => by rw [a.1, b.1, c.pos hp], fun hl => by rw [a.2, b.2, c.lemma' hl]⟩
      · omega
      · omega
    · rcases fromDocument_of_parts hd' hp' with ⟨hl', _⟩ | ⟨_, _, he'⟩ | ⟨_, hne', _⟩
      · omega
      · exact .inl ⟨_, _, he, he', .nil⟩
      · rw [hnil] at hfl
        exact absurd (List.length_eq_zero_iff.1 hfl.symm) hne'
    · rcases fromDocument_of_parts hd' hp' with ⟨hl', _⟩ | ⟨_, hnil', _⟩ | ⟨_, _, he'⟩
      · omega
      · rw [hnil'] at hfl
        exact absurd (List.length_eq_zero_iff.1 hfl) hne
      · exact .inr ⟨_, he, he'⟩

/-- C133: wherever a sentence stands in a tagged document, its words get the same tags and lemmas. -/
theorem C133_position (d d' e e' : Document) (hd : Built d) (hd' : Built d')
    (he : trainedTag lower float zero other seen ps net d = .ok e)
    (he' : trainedTag lower float zero other seen ps net d' = .ok e') (s s' : Sentence) (hs : s ∈ d.sentences)
    (hs' : s' ∈ d'.sentences) (h : SameWords d s d' s') (k : Nat) (hk : k < s.stop - s.start) :
    Option.Rel (SamePrediction ps) e.tokens[s.start + k]? e'.tokens[s'.start + k]? := by
  unfold trainedTag at he he'
  cases hi : assembleInterp lower seen ps with
  | error e => rw [hi] at he; cases he
  | ok i =>
    rw [hi] at he he'
    simp only at he he'
    have hsame := C133_sentence lower float zero other seen ps net i hi d d' s s' h
    obtain ⟨ws, rfl, hw⟩ := assembleInterp_ok hi
    obtain ⟨ts, h1, h2⟩ := tagDocument_tokens hd he hs
    obtain ⟨ts', h3, h4⟩ := tagDocument_tokens hd' he' hs'
    rw [h1, h3] at hsame
    rcases hsame with ⟨a, b, e1, e2, hab⟩ | ⟨e, e1, _⟩
    · injection e1 with e1
      injection e2 with e2
      subst e1 e2
      have r1 := h2 k hk
      have r2 := h4 k (by rw [← h.length]; exact hk)
      have r3 := get_of_forall₂ hab k
      cases hx : ts[k]? with
      | none =>
        rw [hx] at r1 r3
        cases hy : ts'[k]? with
        | some u' => rw [hy] at r3; cases r3
        | none =>
          rw [hy] at r2
          cases hz : e.tokens[s.start + k]? with
          | some c => rw [hz] at r1; cases r1
          | none =>
            cases hz' : e'.tokens[s'.start + k]? with
            | some c => rw [hz'] at r2; cases r2
            | none => exact .none
      | some u =>
        rw [hx] at r1 r3
        cases hy : ts'[k]? with
        | none => rw [hy] at r3; cases r3
        | some u' =>
          rw [hy] at r2 r3
          cases hz : e.tokens[s.start + k]? with
          | none => rw [hz] at r1; cases r1
          | some c =>
            cases hz' : e'.tokens[s'.start + k]? with
            | none => rw [hz'] at r2; cases r2
            | some c' =>
              rw [hz] at r1
              rw [hz'] at r2
              cases r1 with
              | some a => cases r2 with
                | some b => cases r3 with
                  | some c => exact .some ⟨fun hp => by rw [a.1, b.1, c.pos hp],
                      fun hl => by rw [a.2, b.2, c.lemma' hl]⟩
    · cases e1

end

namespace Demo

/-- A word before the annotated words, in a sentence of its own. -/
def longerDoc : Document :=
  { text := "c  a b".toList,
    tokens := [{ start := 0, stop := 1 }, { start := 3, stop := 4, lemma' := some "z".toList }, { start := 5, stop := 6 }],
    sentences := [{ start := 0, stop := 1 }, { start := 1, stop := 3 }] }

theorem longer_built : Built longerDoc :=
  ⟨longerDoc.text, longerDoc.tokens, longerDoc.sentences, false, by decide +kernel⟩
theorem gold_built : Built goldDoc := ⟨goldDoc.text, goldDoc.tokens, goldDoc.sentences, false, by decide +kernel⟩

theorem same_words : SameWords goldDoc ⟨0, 2, by decide⟩ longerDoc ⟨1, 3, by decide⟩ :=
  ⟨rfl, by decide +kernel⟩
theorem same_words_blind : SameWords goldDoc ⟨0, 2, by decide⟩ blindDoc ⟨0, 2, by decide⟩ :=
  ⟨rfl, by decide +kernel⟩

/-- The identity of a word is its feature. -/
def wordProviders : List Provider := [.trainable "w".toList 0 false, .lemmaDict "l".toList]

/-- A network that gives every word the class of its id. -/
def echoNet (f : Features) : Res Features :=
  match f.get? "w".toList with
  | some (.list rows) => .ok (Dict.ofList [("l".toList, .list (rows.map (fun r => match r with
      | .list ws => .list (ws.map (fun w => match w with
        | .int n => .list [.int (n % 2)]
        | x => x))
      | x => x)))])
  | _ => .error .key

end Demo

/-- Words are tagged after their texts, wherever they stand. -/
example : (trainedTag id Demo.float 0 (Demo.ptok 0) (fun _ => [Demo.goldDoc]) Demo.wordProviders Demo.echoNet Demo.goldDoc).map
      (fun e => e.tokens.map Token.lemma') = .ok [some "x".toList, some "y".toList] ∧
    (trainedTag id Demo.float 0 (Demo.ptok 0) (fun _ => [Demo.goldDoc]) Demo.wordProviders Demo.echoNet Demo.longerDoc).map
      (fun e => e.tokens.map Token.lemma') = .ok [some "y".toList, some "x".toList, some "y".toList] := by
  decide +kernel

example (net : Features → Res Features) := C133_document id Demo.float 0 (Demo.ptok 0) (fun _ => [Demo.goldDoc]) Demo.wordProviders
  net Demo.goldDoc Demo.blindDoc Demo.gold_built Demo.blind_built (.cons Demo.same_words_blind .nil)

/-- C133: tags and lemmas without labels are not predicted, and stay different. -/
theorem C133_unpredicted : ∃ e e', trainedTag id Demo.float 0 (Demo.ptok 0) (fun _ => [Demo.goldDoc]) Demo.wordProviders
      Demo.echoNet Demo.goldDoc = .ok e ∧
    trainedTag id Demo.float 0 (Demo.ptok 0) (fun _ => [Demo.goldDoc]) Demo.wordProviders Demo.echoNet Demo.blindDoc = .ok e' ∧
    e.tokens.map Token.lemma' = e'.tokens.map Token.lemma' ∧ e.tokens.map Token.pos ≠ e'.tokens.map Token.pos := by
  refine ⟨_, _, rfl, rfl, ?_, ?_⟩ <;> decide +kernel

end Verif
