import Verif.Proofs.Pipeline3
import Verif.Proofs.RoundTrip
import Verif.Props.ConlluLine
import Verif.Spec.Wrappers

/-! # Lemmas about the wrappers -/

namespace Verif

/-! ### Replacing the tokens of a document sentence by sentence -/

/-- Tokens in the same places whose heads are given in the sentence view only. -/
theorem fromDocument_sentHeads {d : Document} (h : DocOk d) {ts : List Token}
    (h2 : List.Forall₂ SameSpan d.tokens ts) (hn : ∀ t ∈ ts, t.headDoc = none) :
    ∃ r, d.fromDocument ts = .ok ⟨d.text, r, d.sentences⟩ ∧
      List.Forall₂ (fun a b => SameButHeads a b ∧ b.headSent = a.headSent) ts r := by
  obtain ⟨r, hr⟩ := (fillTokenHeads_isOk (toks := ts) (ss := d.sentences)).mpr (by
    intro s _ t ht x y _ hy
    rw [hn t ((slice_sublist ts s.start s.stop).subset ht)] at hy
    cases hy)
  refine ⟨r, fromDocument_fill h h2 hr, ?_⟩
  have ht : Tiles 0 d.sentences ts.length := h2.length_eq ▸ h.tiles
  obtain ⟨h3, h4⟩ := fillTokenHeads_spec ht hr
  simp only [Nat.sub_zero] at h3 h4
  rw [forall₂_getElem?]
  refine ⟨h3.symm, fun j a b ha hb => ?_⟩
  obtain ⟨s, hs, h5, h6⟩ := ht.cover (Nat.zero_le j) (List.getElem?_eq_some_iff.mp ha).1
  obtain ⟨t, t', e1, e2, e3⟩ := h4 s hs j h5 h6
  rw [ha] at e1
  rw [hb] at e2
  injection e1 with e1
  injection e2 with e2
  subst e1 e2
  refine ⟨e3.same, ?_⟩
  have hd := hn a (List.mem_of_getElem? ha)
  cases e3 with
  | none h1 _ => rfl
  | root h =>
    rcases h with h | h
    · exact h.symm
    · rw [hd] at h; cases h
  | sent h1 _ _ => exact h1.symm
  | doc h1 _ _ => rw [hd] at h1; cases h1

theorem fromDocument_bySentence {d : Document} (h : DocOk d) {tss : List (List Token)}
    (h2 : List.Forall₂ (fun (s : Sentence) ts => List.Forall₂ (fun a b => SameSpan a b ∧ b.headDoc = none)
      (slice d.tokens s.start s.stop) ts) d.sentences tss) :
    ∃ r, d.fromDocument tss.flatten = .ok ⟨d.text, r, d.sentences⟩ ∧
      List.Forall₂ (fun (s : Sentence) ts => List.Forall₂ (fun a b => SameButHeads a b ∧ b.headSent = a.headSent)
        ts (slice r s.start s.stop)) d.sentences tss := by
  have h3 : List.Forall₂ (fun a b => SameSpan a b ∧ b.headDoc = none)
      ((d.sentences.map (fun s => slice d.tokens s.start s.stop)).flatten) tss.flatten := by
    apply List.rel_flatten
    rw [List.forall₂_map_left_iff]
    exact h2
  rw [tiles_flatten d.tokens (a := 0) h.tiles, slice_zero_length] at h3
  obtain ⟨r, hr, h4⟩ := fromDocument_sentHeads h (h3.imp (fun _ _ hab => hab.1)) (by
    intro t ht
    obtain ⟨_, _, h5⟩ := forall₂_mem_right h3 ht
    exact h5.2)
  refine ⟨r, hr, ?_⟩
  have hlen : List.Forall₂ (fun (s : Sentence) (b : List Token) => b.length = s.stop - s.start)
      d.sentences tss := by
    refine forall₂_imp_mem h2 (fun s ts hs hst => ?_)
    rw [← hst.length_eq, slice_length]
    have := (h.tiles.mem hs).2
    omega
  obtain ⟨h5, h6⟩ := tiles_flatten_get h.tiles hlen
  simp only [Nat.sub_zero] at h5 h6
  have h4' := forall₂_getElem?.mp h4
  rw [forall₂_getElem?]
  refine ⟨h2.length_eq, fun i s ts hs hts => ?_⟩
  have hsm := List.mem_of_getElem? hs
  have hl := (forall₂_getElem?.mp hlen).2 i s ts hs hts
  have hb := (h.tiles.mem hsm).2
  have hlt := s.lt
  rw [forall₂_getElem?]
  refine ⟨by rw [slice_length, ← h4'.1, h5]; omega, fun j a b ha hb => ?_⟩
  have hj : j < ts.length := (List.getElem?_eq_some_iff.mp ha).1
  rw [slice_getElem?, if_pos (by omega)] at hb
  have h7 := h6 i s ts hs hts (s.start + j) (by omega) (by omega)
  rw [show s.start + j - s.start = j by omega, ha] at h7
  exact h4'.2 _ _ _ h7 hb

/-! ### UDPipe -/

theorem udParseFeats_eq (s : Str) : udParseFeats s =
    if s = [] then .ok none else (match parseToDict (some s) with
      | .error e => .error e
      | .ok d => .ok (some d)) := by
  unfold udParseFeats parseToDict
  split
  · rfl
  · simp only
    cases mapM' parseEntry (splitOn1 '|' s) <;> rfl

/-- The token made from `t` and the word `w` with parsed features `f`. -/
def udToken (t : Token) (w : UdWord) (f : Option (Dict Str Str)) : Token :=
  { t with
    pos := udPos w f, lemma' := nonEmpty w.lemma', deprel := nonEmpty w.deprel
    headDoc := none, headSent := udHead w }

theorem fromUdWord_eq (t : Token) (w : UdWord) : fromUdWord (t, w) =
    match udParseFeats w.feats with
    | .error e => .error e
    | .ok f => .ok (udToken t w f) := by
  unfold fromUdWord
  cases udParseFeats w.feats with
  | error e => rfl
  | ok f => simp [Token.withMorphology_ok, Token.withSyntax_ok, udToken]

theorem nonEmpty_eq (s : Str) : nonEmpty s = clean (some s) := by
  cases s <;> rfl

theorem udToken_annotated {t u : Token} {w : UdWord} {f : Option (Dict Str Str)}
    (hf : udParseFeats w.feats = .ok f) (h1 : SameButHeads (udToken t w f) u)
    (h2 : u.headSent = (udToken t w f).headSent) : AnnotatedAs t w u := by
  obtain ⟨e1, e2, e3, e4, e5, e6, e7, e8⟩ := h1
  have hne : w.feats ≠ [] → ∃ d, f = some d ∧ Attrs (some w.feats) d ∧ d.entries ≠ [] := by
    intro h0
    rw [udParseFeats_eq, if_neg h0] at hf
    cases hp : parseToDict (some w.feats) with
    | error e => rw [hp] at hf; cases hf
    | ok d =>
      rw [hp] at hf
      injection hf with hf
      have ha := attrs_of hp
      refine ⟨d, hf.symm, ha, ?_⟩
      obtain ⟨parts, pairs, h3, _, _, h6, h7⟩ := ha
      intro h8
      have hlen := h6.length_eq
      have hpne : pairs.reverse ≠ [] := by
        intro h9
        rw [List.reverse_eq_nil_iff] at h9
        rw [h9] at hlen
        exact h3 (List.length_eq_zero_iff.mp hlen)
      obtain ⟨x, xs, hx⟩ := List.exists_cons_of_ne_nil hpne
      have h9 := h7 x.1
      rw [hx] at h9
      simp only [List.find?_cons, decide_true, Option.map_some, Dict.get?, h8, assocGet] at h9
      cases h9
  refine ⟨⟨e1.symm, e2.symm, e3.symm, e4.symm, e8.symm⟩, ?_, ?_, ?_, ?_, ?_⟩
  · rw [← e6, ← nonEmpty_eq]; rfl
  · rw [← e7, ← nonEmpty_eq]; rfl
  · rw [h2]
    simp only [udToken, udHead]
    by_cases h0 : 0 ≤ w.head
    · rw [if_pos h0, if_neg (by omega)]
    · rw [if_neg h0, if_pos (by omega)]
  · intro a1 a2 a3
    rw [← e5]
    rw [a3] at hf
    simp only [udParseFeats, if_true] at hf
    injection hf with hf
    subst hf
    simp [udToken, udPos, a1, a2, Dict.empty]
  · intro h0
    rw [← e5]
    simp only [udToken, udPos]
    by_cases h3 : w.feats = []
    · rw [h3] at hf
      simp only [udParseFeats, if_true] at hf
      injection hf with hf
      subst hf
      have h4 : w.upostag ≠ [] ∨ w.xpostag ≠ [] := by tauto
      rw [if_pos (by tauto)]
      refine ⟨_, rfl, nonEmpty_eq _, nonEmpty_eq _, ?_⟩
      rw [h3]
      intro k
      rfl
    · obtain ⟨d, rfl, h4, h5⟩ := hne h3
      simp only [Option.getD_some]
      rw [if_pos (Or.inr (Or.inr h5))]
      refine ⟨_, rfl, nonEmpty_eq _, nonEmpty_eq _, ?_⟩
      obtain ⟨c, cs, hc⟩ := List.exists_cons_of_ne_nil h3
      rw [hc] at h4 ⊢
      exact h4

theorem udParseFeats_answer {n : Nat} {ws : List UdWord} (h : UdAnswer n ws) {w : UdWord} (hw : w ∈ ws) :
    ∃ f, udParseFeats w.feats = .ok f := by
  rw [udParseFeats_eq]
  by_cases h0 : w.feats = []
  · rw [if_pos h0]; exact ⟨_, rfl⟩
  · rw [if_neg h0]
    obtain ⟨f, hf⟩ := h.2 w hw h0
    obtain ⟨d, hd⟩ := of_attrs hf
    rw [hd]
    exact ⟨_, rfl⟩

theorem fromUd_total {ts : List Token} {ws : List UdWord} (h : UdAnswer ts.length ws) :
    ∃ us, fromUd ts ws = .ok us ∧ List.Forall₂ (fun a b => SameSpan a b ∧ b.headDoc = none) ts us ∧
      ∀ (j : Nat) t w u, ts[j]? = some t → ws[j]? = some w → us[j]? = some u →
        ∃ f, udParseFeats w.feats = .ok f ∧ u = udToken t w f := by
  obtain ⟨us, hus⟩ : ∃ us, fromUd ts ws = .ok us := by
    apply mapM'_total
    rintro ⟨t, w⟩ hp
    obtain ⟨f, hf⟩ := udParseFeats_answer h (List.of_mem_zip hp).2
    rw [fromUdWord_eq, hf]
    exact ⟨_, rfl⟩
  refine ⟨us, hus, ?_⟩
  have h1 := forall₂_getElem?.mp (mapM'_ok_iff.mp hus)
  have hl : us.length = ts.length := by
    rw [← h1.1, List.length_zip, h.1]
    omega
  have key : ∀ (j : Nat) t w u, ts[j]? = some t → ws[j]? = some w → us[j]? = some u →
        ∃ f, udParseFeats w.feats = .ok f ∧ u = udToken t w f := by
    intro j t w u ht hw hu
    have h2 : (ts.zip ws)[j]? = some (t, w) := by
      rw [List.getElem?_zip_eq_some]
      exact ⟨ht, hw⟩
    have h3 := h1.2 _ _ _ h2 hu
    rw [fromUdWord_eq] at h3
    cases hf : udParseFeats w.feats with
    | error e => rw [hf] at h3; cases h3
    | ok f =>
      rw [hf] at h3
      injection h3 with h3
      exact ⟨f, rfl, h3.symm⟩
  refine ⟨?_, key⟩
  rw [forall₂_getElem?]
  refine ⟨hl.symm, fun j t u ht hu => ?_⟩
  have hj : j < ws.length := by
    rw [h.1]
    exact (List.getElem?_eq_some_iff.mp ht).1
  obtain ⟨f, _, rfl⟩ := key j t _ u ht (List.getElem?_eq_getElem hj) hu
  exact ⟨⟨rfl, rfl, rfl, rfl⟩, rfl⟩

theorem udProcess_total {pipe : List UdWord → Res (List UdWord)} {d : Document} (hd : DocOk d)
    (hp : ∀ s ∈ d.sentences, ∃ ws, pipe ((d.sentenceTokens s).map (toUd d.text)) = .ok ws ∧
      UdAnswer (s.stop - s.start) ws) :
    ∃ d', udProcess pipe d = .ok d' ∧ d'.text = d.text ∧ d'.sentences = d.sentences ∧
      ∀ s ∈ d.sentences, ∃ ws, pipe ((d.sentenceTokens s).map (toUd d.text)) = .ok ws ∧
        (d'.sentenceTokens s).length = (d.sentenceTokens s).length ∧
        ∀ (j : Nat) t w u, (d.sentenceTokens s)[j]? = some t → ws[j]? = some w →
          (d'.sentenceTokens s)[j]? = some u → AnnotatedAs t w u := by
  have hlen : ∀ s ∈ d.sentences, (slice d.tokens s.start s.stop).length = s.stop - s.start := by
    intro s hs
    rw [slice_length]
    have := (hd.tiles.mem hs).2
    omega
  have hsent : ∀ s ∈ d.sentences, ∃ us, udSentence pipe d s = .ok us := by
    intro s hs
    obtain ⟨ws, h1, h2⟩ := hp s hs
    obtain ⟨us, h3, _⟩ := fromUd_total (ts := slice d.tokens s.start s.stop) (ws := ws)
      (by rw [hlen s hs]; exact h2)
    refine ⟨us, ?_⟩
    unfold udSentence
    rw [show pipe ((slice d.tokens s.start s.stop).map (toUd d.text)) = .ok ws from h1]
    exact h3
  obtain ⟨tss, htss⟩ := mapM'_total (f := udSentence pipe d) (l := d.sentences) hsent
  have hf := mapM'_ok_iff.mp htss
  have hprop : ∀ s us, s ∈ d.sentences → udSentence pipe d s = .ok us →
      List.Forall₂ (fun a b => SameSpan a b ∧ b.headDoc = none) (slice d.tokens s.start s.stop) us ∧
      ∃ ws, pipe ((d.sentenceTokens s).map (toUd d.text)) = .ok ws ∧
        ∀ (j : Nat) t w u, (d.sentenceTokens s)[j]? = some t → ws[j]? = some w → us[j]? = some u →
        ∃ f, udParseFeats w.feats = .ok f ∧ u = udToken t w f := by
    intro s us hs hus
    obtain ⟨ws, h1, h2⟩ := hp s hs
    obtain ⟨us', h3, h4, h5⟩ := fromUd_total (ts := slice d.tokens s.start s.stop) (ws := ws)
      (by rw [hlen s hs]; exact h2)
    unfold udSentence at hus
    rw [show pipe ((slice d.tokens s.start s.stop).map (toUd d.text)) = .ok ws from h1] at hus
    simp only at hus
    rw [h3] at hus
    injection hus with hus
    subst hus
    exact ⟨h4, ws, h1, h5⟩
  obtain ⟨r, hr, hr2⟩ := fromDocument_bySentence hd
    (forall₂_imp_mem hf (fun s us hs h => (hprop s us hs h).1))
  refine ⟨⟨d.text, r, d.sentences⟩, by simp only [udProcess, htss, hr], rfl, rfl, ?_⟩
  intro s hs
  obtain ⟨i, hi⟩ := List.mem_iff_getElem?.mp hs
  have hil : i < tss.length := by
    rw [← hf.length_eq]
    exact (List.getElem?_eq_some_iff.mp hi).1
  have hus := List.getElem?_eq_getElem hil
  obtain ⟨h1, ws, h2, h3⟩ := hprop s _ hs ((forall₂_getElem?.mp hf).2 i _ _ hi hus)
  have h4 := (forall₂_getElem?.mp hr2).2 i _ _ hi hus
  refine ⟨ws, h2, ?_, ?_⟩
  · show (slice r s.start s.stop).length = (slice d.tokens s.start s.stop).length
    rw [← h4.length_eq, ← h1.length_eq]
  · intro j t w u ht hw hu
    have hj : j < (tss[i]).length := by
      rw [← h1.length_eq]
      exact (List.getElem?_eq_some_iff.mp ht).1
    obtain ⟨f, h5, h6⟩ := h3 j t w _ ht hw (List.getElem?_eq_getElem hj)
    obtain ⟨h7, h8⟩ := (forall₂_getElem?.mp h4).2 j _ u (List.getElem?_eq_getElem hj) hu
    rw [h6] at h7 h8
    exact udToken_annotated h5 h7 h8

theorem udFeats_parse {f : Dict Str Str} (h : ∀ e ∈ f.entries, FeatOk e) (hne : f.entries ≠ []) :
    udFeats f ≠ [] ∧ ∃ d, parseToDict (some (udFeats f)) = .ok d ∧ SameMap f d := by
  obtain ⟨d, h1, h2⟩ := parseToDict_feats h
  have he : udFeats f = featsField f := by
    unfold udFeats featsField
    rw [if_neg (by simpa using hne), if_neg (by simpa using hne)]
  cases hu : unshield (featsField f) with
  | none =>
    exfalso
    rw [hu] at h1
    simp only [parseToDict, Except.ok.injEq] at h1
    subst h1
    obtain ⟨x, xs, hx⟩ := List.exists_cons_of_ne_nil hne
    have h3 := h2 x.1
    simp only [Dict.get?, hx, assocGet, if_true] at h3
    cases h3
  | some s =>
    have hs : s = featsField f := by
      unfold unshield at hu
      split at hu
      · cases hu
      · injection hu with hu; exact hu.symm
    rw [hu, hs] at h1
    refine ⟨?_, d, by rw [he]; exact h1, h2⟩
    rw [he]
    intro h0
    rw [h0] at h1
    simp [parseToDict, splitOn1, mapM', parseEntry] at h1

theorem toUd_answer {d : Document} {ts : List Token} (h : ∀ t ∈ ts, FeatsWritable t) :
    UdAnswer ts.length (ts.map (toUd d.text)) := by
  refine ⟨by simp, ?_⟩
  intro w hw hne
  obtain ⟨t, ht, rfl⟩ := List.mem_map.mp hw
  unfold toUd at hne ⊢
  cases hp : t.pos with
  | none => rw [hp] at hne; exact absurd rfl hne
  | some p =>
    rw [hp] at hne
    simp only at hne ⊢
    have hne' : p.feats.entries ≠ [] := by
      intro h0
      apply hne
      simp [udFeats, h0]
    obtain ⟨_, f, h1, _⟩ := udFeats_parse (h t ht p hp) hne'
    exact ⟨f, attrs_of h1⟩

theorem annotated_morphology {text : Str} {t u : Token} (hw : FeatsWritable t)
    (h : AnnotatedAs t (toUd text t) u) : SameMorphology t u := by
  constructor
  · rw [h.lemma']
    unfold toUd
    cases t.pos <;> cases t.lemma' <;> rfl
  · cases hp : t.pos with
    | none =>
      left
      refine ⟨?_, by simp⟩
      apply h.noPos <;> simp [toUd, hp]
    | some p =>
      have e : ∀ o : Option Str, clean (some (o.getD [])) = clean o := fun o => by cases o <;> rfl
      have eu : (toUd text t).upostag = p.upos.getD [] := by simp [toUd, hp]
      have ex : (toUd text t).xpostag = p.xpos.getD [] := by simp [toUd, hp]
      have ef : (toUd text t).feats = udFeats p.feats := by simp [toUd, hp]
      have hcl : ∀ o : Option Str, o.getD [] = [] → clean o = none := by
        intro o ho
        cases o with
        | none => rfl
        | some s => simp only [Option.getD_some] at ho; subst ho; rfl
      by_cases hall : p.upos.getD [] = [] ∧ p.xpos.getD [] = [] ∧ p.feats.entries = []
      · left
        refine ⟨?_, ?_⟩
        · apply h.noPos
          · rw [eu]; exact hall.1
          · rw [ex]; exact hall.2.1
          · rw [ef]; simp [udFeats, hall.2.2]
        · intro p' hp'
          injection hp' with hp'
          subst hp'
          exact ⟨hcl _ hall.1, hcl _ hall.2.1, by simp [Dict.keys, hall.2.2]⟩
      · right
        have hfe : p.feats.entries ≠ [] → udFeats p.feats ≠ [] := fun h0 => (udFeats_parse (hw p hp) h0).1
        obtain ⟨q, h1, h2, h3, h4⟩ := h.pos (by rw [eu, ex, ef]; tauto)
        refine ⟨p, q, rfl, h1, by rw [h2, eu, e], by rw [h3, ex, e], ?_⟩
        rw [ef] at h4
        by_cases h0 : p.feats.entries = []
        · have h5 : udFeats p.feats = [] := by simp [udFeats, h0]
          rw [h5] at h4
          intro k
          have h6 : q.feats.get? k = none := h4 k
          rw [h6]
          simp [Dict.get?, h0, assocGet]
        · obtain ⟨h5, dd, h6, h7⟩ := udFeats_parse (hw p hp) h0
          have h8 : clean (some (udFeats p.feats)) = some (udFeats p.feats) := by
            obtain ⟨c, cs, hc⟩ := List.exists_cons_of_ne_nil h5
            rw [hc]; rfl
          rw [h8] at h4
          intro k
          rw [h4.unique (attrs_of h6) k, h7 k]

end Verif
