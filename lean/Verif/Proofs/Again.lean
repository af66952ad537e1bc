import Verif.Spec.Again
import Verif.Props.Tagger
import Verif.Props.Pipeline

/-! # Proofs about annotating a document again -/

namespace Verif

/-! ### What is not labelled is kept -/

/-- `b` is related to the beginning of `a`. -/
def Begins {α β : Type} (R : α → β → Prop) (a : List α) (b : List β) : Prop :=
  b.length ≤ a.length ∧ List.Forall₂ R (a.take b.length) b

theorem iterInterpret_begins {α β : Type} {R : α → β → Prop} {f : α → Features → Res β}
    (hf : ∀ t v t', f t v = .ok t' → R t t') {ts : List α} {value : Dict Str (List Feat)} {r : List β}
    (h : iterInterpret f ts value = .ok r) : Begins R ts r := by
  unfold iterInterpret at h
  generalize converted value = c at h
  induction ts generalizing c r with
  | nil =>
    simp only [List.zip_nil_left, mapM'] at h
    injection h with h
    subst h
    exact ⟨by simp, by simp⟩
  | cons t ts ih =>
    cases c with
    | nil =>
      simp only [List.zip_nil_right, mapM'] at h
      injection h with h
      subst h
      exact ⟨by simp, by simp⟩
    | cons v c =>
      simp only [List.zip_cons_cons, mapM'] at h
      cases h1 : f t v with
      | error e => rw [h1] at h; cases h
      | ok t' =>
        rw [h1] at h
        simp only at h
        cases h2 : mapM' (fun p : α × Features => f p.1 p.2) (ts.zip c) with
        | error e => rw [h2] at h; cases h
        | ok r' =>
          rw [h2] at h
          injection h with h
          subst h
          obtain ⟨h3, h4⟩ := ih c h2
          exact ⟨by simpa using h3, by simpa using ⟨hf t v t' h1, h4⟩⟩

theorem begins_flatten {α β : Type} {R : α → β → Prop} {as : List (List α)} {bs : List (List β)}
    (h : List.Forall₂ (Begins R) as bs) : bs.flatten.length ≤ as.flatten.length ∧
    (bs.flatten.length = as.flatten.length → List.Forall₂ R as.flatten bs.flatten) := by
  induction h with
  | nil => exact ⟨by simp, fun _ => by simp⟩
  | @cons a b as bs h1 _ ih =>
    simp only [List.flatten_cons, List.length_append]
    have := h1.1
    refine ⟨by omega, fun he => ?_⟩
    have h2 := h1.2
    rw [List.take_of_length_le (by omega)] at h2
    exact List.rel_append h2 (ih.2 (by omega))

/-- Interpreters change what they are for only. -/
def KeptBy (ws : List WordInterp) (t u : TextToken) : Prop :=
  ((∀ w ∈ ws, w.tagsPos = false) → u.2.pos = t.2.pos) ∧ ((∀ w ∈ ws, w.tagsPos = true) → u.2.lemma' = t.2.lemma')

theorem interpret_kept {lower : Str → Str} {w : WordInterp} {t u : TextToken} {v : Features}
    (h : w.interpret lower t v = .ok u) :
    (w.tagsPos = false → u.2.pos = t.2.pos) ∧ (w.tagsPos = true → u.2.lemma' = t.2.lemma') := by
  obtain ⟨_, _, x, _, _, hv, rfl⟩ := WordInterp.interpret_ok h
  have hl := WordInterp.value_kind hv
  cases x with
  | inl q => exact ⟨fun h0 => (by rw [h0] at hl; cases hl), fun _ => rfl⟩
  | inr l => exact ⟨fun _ => rfl, fun h0 => (by rw [h0] at hl; cases hl)⟩

theorem composite_kept {lower : Str → Str} (ws : List WordInterp) {t u : TextToken} {v : Features}
    (h : compositeInterpret (ws.map (fun i => i.interpret lower)) t v = .ok u) : KeptBy ws t u := by
  unfold compositeInterpret at h
  induction ws generalizing t with
  | nil =>
    injection h with h
    subst h
    exact ⟨fun _ => rfl, fun _ => rfl⟩
  | cons w ws ih =>
    simp only [List.map_cons, forM'] at h
    cases hi : w.interpret lower t v with
    | error e => rw [hi] at h; cases h
    | ok t1 =>
      rw [hi] at h
      obtain ⟨h1, h2⟩ := ih h
      obtain ⟨h3, h4⟩ := interpret_kept hi
      exact ⟨fun ha => (h1 fun w hw => ha w (by simp [hw])).trans (h3 (ha w (by simp))),
        fun ha => (h2 fun w hw => ha w (by simp [hw])).trans (h4 (ha w (by simp)))⟩

theorem interpretSentence_kept {lower : Str → Str} (ws : List WordInterp) {ts r : List TextToken} {pred : Features}
    (h : interpretSentence lower (batchInterp ws) ts pred = .ok r) : Begins (KeptBy ws) ts r := by
  by_cases hne : ws = []
  · subst hne
    simp only [batchInterp, if_true, interpretSentence, Interp.run] at h
    have := chainTokens_seq [ts]
    simp only [List.map_cons, List.map_nil, List.flatten_cons, List.flatten_nil, List.append_nil] at this
    rw [this] at h
    injection h with h
    subst h
    refine ⟨Nat.le_refl _, ?_⟩
    rw [List.take_length]
    exact List.forall₂_same.2 (fun t _ => ⟨fun _ => rfl, fun _ => rfl⟩)
  · simp only [batchInterp, if_neg hne, interpretSentence_eq] at h
    cases ha : asSequences pred with
    | error e => rw [ha] at h; cases h
    | ok P =>
      rw [ha] at h
      simp only [tagSentence] at h
      cases hit : iterInterpret (interpretWords lower ws) [ts] P with
      | error e => rw [hit] at h; cases h
      | ok l =>
        rw [hit] at h
        injection h with h
        subst h
        have hb := iterInterpret_begins (R := Begins (KeptBy ws)) (fun a v b hab => by
          unfold interpretWords at hab
          cases hs : asSequences v with
          | error e => rw [hs] at hab; cases hab
          | ok w =>
            rw [hs] at hab
            simp only at hab
            exact iterInterpret_begins (R := KeptBy ws) (fun t v t' ht => composite_kept (lower := lower) ws ht) hab) hit
        obtain ⟨h1, h2⟩ := hb
        match l, h1, h2 with
        | [], _, _ => exact ⟨by simp, by simp⟩
        | [b], _, h2 =>
          cases h2 with
          | cons h3 _ => simpa using h3
        | _ :: _ :: _, h1, _ => simp at h1

/-! ### Labels and interpreters -/

theorem labelInterps_pos {lower : Str → Str} {seen : Seen} {ps : List Provider} {ws : List WordInterp}
    (h : LabelInterps lower seen ps ws) (hn : ¬ ∃ p ∈ ps, p.tags) : ∀ w ∈ ws, w.tagsPos = false := by
  obtain ⟨ss, h1, h2⟩ := h
  intro w hw
  obtain ⟨s, hs, he⟩ : ∃ s ∈ ss, s.interp lower (seen s) = .ok (.word w) := by
    obtain ⟨i, hi⟩ := List.mem_iff_getElem?.1 hw
    have := get_of_forall₂ h2 i
    rw [hi] at this
    cases hx : ss[i]? with
    | none => rw [hx] at this; cases this
    | some s =>
      rw [hx] at this
      cases this with
      | some h => exact ⟨s, List.mem_of_getElem? hx, h⟩
  obtain ⟨p, hp, hps⟩ := List.mem_filterMap.1 (h1.mem_iff.1 hs)
  cases p with
  | posDict n sp => exact absurd ⟨_, hp, trivial⟩ hn
  | _ =>
    simp only [Provider.labelSpec, Option.some.injEq, reduceCtorEq] at hps
    try subst hps
    try simp only [LeafSpec.interp] at he
    try split at he
    all_goals first
      | (cases he; done)
      | (cases he; rfl)
      | (simp only [Except.ok.injEq, Interp.word.injEq] at he; rw [← he]; rfl)

theorem labelInterps_lemma {lower : Str → Str} {seen : Seen} {ps : List Provider} {ws : List WordInterp}
    (h : LabelInterps lower seen ps ws) (hn : ¬ ∃ p ∈ ps, p.lemmas) : ∀ w ∈ ws, w.tagsPos = true := by
  obtain ⟨ss, h1, h2⟩ := h
  intro w hw
  obtain ⟨s, hs, he⟩ : ∃ s ∈ ss, s.interp lower (seen s) = .ok (.word w) := by
    obtain ⟨i, hi⟩ := List.mem_iff_getElem?.1 hw
    have := get_of_forall₂ h2 i
    rw [hi] at this
    cases hx : ss[i]? with
    | none => rw [hx] at this; cases this
    | some s =>
      rw [hx] at this
      cases this with
      | some h => exact ⟨s, List.mem_of_getElem? hx, h⟩
  obtain ⟨p, hp, hps⟩ := List.mem_filterMap.1 (h1.mem_iff.1 hs)
  cases p with
  | lemmaDict n => exact absurd ⟨_, hp, trivial⟩ hn
  | lemmaRules f n t => exact absurd ⟨_, hp, trivial⟩ hn
  | lemmaChars n t m sg => exact absurd ⟨_, hp, trivial⟩ hn
  | _ =>
    simp only [Provider.labelSpec, Option.some.injEq, reduceCtorEq] at hps
    try subst hps
    try simp only [LeafSpec.interp] at he
    try split at he
    all_goals first
      | (cases he; done)
      | (cases he; rfl)
      | (simp only [Except.ok.injEq, Interp.word.injEq] at he; rw [← he]; rfl)

/-! ### Documents -/

theorem DocOk.noSentences {d : Document} (h : DocOk d) (h0 : d.tokens = []) : d.sentences = [] := by
  have ht := h.tiles
  rw [h0] at ht
  cases hs : d.sentences with
  | nil => rfl
  | cons s ss =>
    have := (ht.mem (s := s) (by simp [hs])).2
    have := s.lt
    simp only [List.length_nil] at *
    omega

section
variable {F : Type} {lower : Str → Str} {float : Str → Res F} {zero : F} {other : TextToken} {seen : Seen}
  {ps : List Provider} {net : Features → Res Features}

theorem trainedTag_built {d e : Document} (h : trainedTag lower float zero other seen ps net d = .ok e) : Built e := by
  unfold trainedTag at h
  split at h
  · cases h
  · unfold tagDocument at h
    split at h
    · cases h
    · exact fromDocument_built h

/-- What a tagger does to a document: it sets the tags and lemmas it has labels for, or, if the network says nothing, it
drops all words. -/
theorem trainedTag_shape {d e : Document} (hb : Built d)
    (h : trainedTag lower float zero other seen ps net d = .ok e) :
    (Retagged d e ∧ List.Forall₂ (SameUnlabelled ps) d.tokens e.tokens) ∨
      (d.tokens ≠ [] ∧ e = ⟨d.text, [], []⟩) := by
  unfold trainedTag at h
  cases hi : assembleInterp lower seen ps with
  | error e => rw [hi] at h; cases h
  | ok i =>
    rw [hi] at h
    obtain ⟨ws, rfl, hw⟩ := assembleInterp_ok hi
    simp only [tagDocument] at h
    cases hm : mapM' (predictAndInterpret lower (batchInterp ws)
        (predictSentence lower float zero other seen ps net) d) d.sentences with
    | error e => rw [hm] at h; cases h
    | ok tss =>
      rw [hm] at h
      simp only at h
      rw [mapM'_ok_iff] at hm
      have hp : List.Forall₂ PartOf (d.sentences.map (fun s => slice d.textTokens s.start s.stop)) tss := by
        rw [List.forall₂_map_left_iff]
        exact hm.imp (fun _ _ h => predictAndInterpret_part h)
      have hk : List.Forall₂ (Begins (KeptBy ws)) (d.sentences.map (fun s => slice d.textTokens s.start s.stop)) tss := by
        rw [List.forall₂_map_left_iff]
        refine hm.imp (fun s ts h => ?_)
        unfold predictAndInterpret at h
        split at h
        · cases h
        · exact interpretSentence_kept ws h
      have hl : d.textTokens.length = d.tokens.length := by simp [Document.textTokens]
      rcases fromDocument_of_parts hb hp with ⟨hlen, _⟩ | ⟨hlen, hnil, he⟩ | ⟨_, _, he⟩
      · left
        have hp2 := partOf_flatten hp
        have hk2 := (begins_flatten hk).2
        rw [textTokens_flatten hb.docOk] at hp2 hk2
        have h3 := hp2.2 (by omega)
        have h4 := hk2 (by omega)
        unfold Document.textTokens at h3 h4
        rw [List.forall₂_map_left_iff] at h3 h4
        obtain ⟨d2, e1, e2, e3⟩ := retagged_of hb.docOk (ts := tss.flatten.map Prod.snd) (by
          rw [List.forall₂_map_right_iff]
          exact h3.imp (fun a b hab => hab.2))
        rw [e1] at h
        injection h with h
        subst h
        refine ⟨e2, ?_⟩
        rw [List.forall₂_map_left_iff] at e3
        rw [List.forall₂_iff_get] at h4 e3 ⊢
        refine ⟨h4.1.trans e3.1, fun j j1 j2 => ?_⟩
        have a := h4.2 j j1 (e3.1 ▸ j2)
        have b := e3.2 j (e3.1 ▸ j2) j2
        exact ⟨fun hn => by rw [b.1]; exact (a.1 (labelInterps_pos hw hn)).symm,
          fun hn => by rw [b.2]; exact (a.2 (labelInterps_lemma hw hn)).symm⟩
      · right
        rw [he] at h
        injection h with h
        refine ⟨fun h0 => hlen ?_, h.symm⟩
        rw [hnil, h0]
        rfl
      · rw [he] at h
        cases h

end

/-- The same words in the same places. -/
structure SameSpot (t t' : Token) : Prop where
  start : t'.start = t.start
  stop : t'.stop = t.stop
  sub : t'.sub = t.sub
  repl : t'.repl = t.repl

theorem SameButMorph.spot {t t' : Token} (h : SameButMorph t t') : SameSpot t t' := ⟨h.start, h.stop, h.sub, h.repl⟩

theorem SameButSyntax.spot {t t' : Token} (h : SameButSyntax t t') : SameSpot t t' := ⟨h.start, h.stop, h.sub, h.repl⟩

theorem SameSpot.tokText {t t' : Token} (h : SameSpot t t') (text : Str) : tokText text t' = tokText text t := by
  simp only [Verif.tokText, docText, h.start, h.stop, h.repl]

theorem sameWords_of_spots {d d' : Document} (ht : d'.text = d.text) (hs : d'.sentences = d.sentences)
    (h : List.Forall₂ SameSpot d.tokens d'.tokens) :
    List.Forall₂ (fun s s' => SameWords d s d' s') d.sentences d'.sentences := by
  rw [hs, List.forall₂_same]
  refine fun s _ => ⟨rfl, fun k _ => ?_⟩
  have := get_of_forall₂ h (s.start + k)
  rw [ht]
  cases h1 : d.tokens[s.start + k]? with
  | none =>
    rw [h1] at this
    cases h2 : d'.tokens[s.start + k]? with
    | none => rfl
    | some _ => rw [h2] at this; cases this
  | some t =>
    rw [h1] at this
    cases h2 : d'.tokens[s.start + k]? with
    | none => rw [h2] at this; cases this
    | some t' =>
      rw [h2] at this
      cases this with
      | some h => simp [h.tokText]

theorem forall₂_trans {α β γ : Type} {R : α → β → Prop} {S : β → γ → Prop} {T : α → γ → Prop}
    (hT : ∀ a b c, R a b → S b c → T a c) {l : List α} {l' : List β} {l'' : List γ} (h : List.Forall₂ R l l')
    (h' : List.Forall₂ S l' l'') : List.Forall₂ T l l'' := by
  induction h generalizing l'' with
  | nil => cases h'; exact .nil
  | cons h1 _ ih =>
    cases h' with
    | cons h2 h3 => exact .cons (hT _ _ _ h1 h2) (ih h3)

theorem forall₂_both {α β : Type} {R S : α → β → Prop} {l : List α} {l' : List β} (h : List.Forall₂ R l l')
    (h' : List.Forall₂ S l l') : List.Forall₂ (fun a b => R a b ∧ S a b) l l' := by
  induction h with
  | nil => exact .nil
  | cons h1 _ ih =>
    cases h' with
    | cons h2 h3 => exact .cons ⟨h1, h2⟩ (ih h3)

theorem forall₂_swap {α β : Type} {R : α → β → Prop} {S : β → α → Prop} (hS : ∀ a b, R a b → S b a) {l : List α}
    {l' : List β} (h : List.Forall₂ R l l') : List.Forall₂ S l' l := by
  induction h with
  | nil => exact .nil
  | cons h1 _ ih => exact .cons (hS _ _ h1) ih

theorem forall₂_eq {α : Type} {l l' : List α} (h : List.Forall₂ (fun a b => a = b) l l') : l = l' := by
  induction h with
  | nil => rfl
  | cons h1 _ ih => rw [h1, ih]

/-- Same words, tags and lemmas. -/
def SameMorph (t t' : Token) : Prop := t.pos = t'.pos ∧ t.lemma' = t'.lemma'

theorem KeepsHead.again {a b c : Token} (h : KeepsHead a b) (h' : KeepsHead b c) :
    c.headDoc = b.headDoc ∧ c.headSent = b.headSent := by
  unfold KeepsHead at h h'
  by_cases hb : b.isRoot = true
  · rw [if_pos hb] at h'
    by_cases ha : a.isRoot = true
    · rw [if_pos ha] at h
      rw [h.1, h.2]
      exact h'
    · rw [if_neg ha] at h
      refine absurd ?_ ha
      simpa only [Token.isRoot, h.1, h.2] using hb
  · rw [if_neg hb] at h'
    exact h'

theorem KeepsHead.same {a b c : Token} (h : KeepsHead a b) (h' : KeepsHead a c) :
    b.headDoc = c.headDoc ∧ b.headSent = c.headSent := by
  unfold KeepsHead at h h'
  split at h
  · next ha =>
    rw [if_pos ha] at h'
    exact ⟨h.1.trans h'.1.symm, h.2.trans h'.2.symm⟩
  · next ha =>
    rw [if_neg ha] at h'
    exact ⟨h.1.trans h'.1.symm, h.2.trans h'.2.symm⟩

theorem KeepsHead.trans {a b c : Token} (h : KeepsHead a b) (h' : KeepsHead b c) : KeepsHead a c := by
  obtain ⟨h1, h2⟩ := h.again h'
  unfold KeepsHead at h ⊢
  rw [h1, h2]
  exact h

theorem SameButMorph.trans {a b c : Token} (h : SameButMorph a b) (h' : SameButMorph b c) : SameButMorph a c :=
  ⟨h'.start.trans h.start, h'.stop.trans h.stop, h'.sub.trans h.sub, h'.repl.trans h.repl, h'.deprel.trans h.deprel,
    h'.extras.trans h.extras, h.head.trans h'.head⟩

theorem Retagged.trans {a b c : Document} (h : Retagged a b) (h' : Retagged b c) : Retagged a c :=
  ⟨h'.text.trans h.text, h'.sentences.trans h.sentences,
    forall₂_trans (fun _ _ _ x y => x.trans y) h.tokens h'.tokens⟩

theorem token_eq {a b c : Token} (h : SameButMorph a b) (h' : SameButMorph a c) (hm : SameMorph b c) : b = c := by
  obtain ⟨h1, h2⟩ := h.head.same h'.head
  have e1 := h.start.trans h'.start.symm
  have e2 := h.stop.trans h'.stop.symm
  have e3 := h.sub.trans h'.sub.symm
  have e4 := h.repl.trans h'.repl.symm
  have e5 := h.deprel.trans h'.deprel.symm
  have e6 := h.extras.trans h'.extras.symm
  obtain ⟨m1, m2⟩ := hm
  cases b
  cases c
  simp only at *
  subst e1 e2 e3 e4 e5 e6 h1 h2 m1 m2
  rfl

theorem document_eq {a b c : Document} (h : Retagged a b) (h' : Retagged a c)
    (hm : List.Forall₂ SameMorph b.tokens c.tokens) : b = c := by
  have : b.tokens = c.tokens := by
    have h1 := h.tokens
    have h2 := h'.tokens
    apply forall₂_eq
    rw [List.forall₂_iff_get] at h1 h2 hm ⊢
    exact ⟨hm.1, fun j j1 j2 => token_eq (h1.2 j (h1.1 ▸ j1) j1) (h2.2 j (h2.1 ▸ j2) j2) (hm.2 j j1 j2)⟩
  have e1 := h.text.trans h'.text.symm
  have e2 := h.sentences.trans h'.sentences.symm
  cases b
  cases c
  simp only at *
  subst e1 e2 this
  rfl

theorem stubParse_reparsed {d : Document} (hd : Built d) (deprel : Option Str) :
    ∃ g, stubParse deprel d = .ok g ∧ Built g ∧ Reparsed d g := by
  obtain ⟨outs, h1, h2⟩ := C60_valid deprel [d] (by simpa using hd)
  cases h2 with
  | @cons _ g _ _ h3 h4 =>
    cases h4
    obtain ⟨h5, h6, h7, _, _, _, h8⟩ := h3
    refine ⟨g, ?_, ⟨_, _, _, _, h8⟩, h5, h6, h7⟩
    simp only [stubParseAll, mapM'] at h1
    cases hx : stubParse deprel d with
    | error e => rw [hx] at h1; cases h1
    | ok g' =>
      rw [hx] at h1
      simp only [Except.ok.injEq, List.cons.injEq, and_true] at h1
      rw [h1]

theorem attached_congr {deprel : Option Str} {k i : Nat} {a b : Token} (h : SameButSyntax a b) :
    attached deprel k i b = attached deprel k i a := by
  obtain ⟨h1, h2, h3, h4, h5, h6, h7⟩ := h
  cases a
  cases b
  simp only at *
  subst h1 h2 h3 h4 h5 h6 h7
  rfl

theorem attached_unique {deprel : Option Str} {k i : Nat} {a b c : Token} (h : SameButMorph (attached deprel k i a) c)
    (h' : SameButSyntax b c) : attached deprel k i b = c := by
  rw [← attached_congr h']
  have hh : c.headDoc = (attached deprel k i a).headDoc ∧ c.headSent = (attached deprel k i a).headSent := by
    have := h.head
    unfold KeepsHead at this
    by_cases hi : i = 0
    · have hr : (attached deprel k i a).isRoot = true := by simp [attached, Token.isRoot, hi]
      rw [if_pos hr] at this
      simpa [attached, hi] using this
    · split at this
      · next hr =>
        simp [attached, Token.isRoot, hi] at hr
      · exact this
  have hd := h.deprel
  obtain ⟨h1, h2⟩ := hh
  cases c
  simp only [attached] at *
  subst h1 h2 hd
  rfl

end Verif
