import Verif.Proofs.Again
import Verif.Props.Pipeline

/-! # C159: tagging again changes nothing, and taggers and parsers do not disturb each other -/

namespace Verif

section
variable {F : Type} (lower : Str → Str) (float : Str → Res F) (zero : F) (other : TextToken) (seen : Seen)
  (ps : List Provider) (net : Features → Res Features)

/-- Two documents of the same words are tagged alike. -/
theorem trainedTag_two {d d' : Document} (hd : Built d) (hd' : Built d') (ht : d'.text = d.text)
    (hs : d'.sentences = d.sentences) (h : List.Forall₂ SameSpot d.tokens d'.tokens) :
    SameOutcome (fun e e' : Document =>
      (Retagged d e ∧ Retagged d' e' ∧ List.Forall₂ (SamePrediction ps) e.tokens e'.tokens ∧
        List.Forall₂ (SameUnlabelled ps) d.tokens e.tokens ∧ List.Forall₂ (SameUnlabelled ps) d'.tokens e'.tokens) ∨
      (d.tokens ≠ [] ∧ e = ⟨d.text, [], []⟩ ∧ e' = ⟨d.text, [], []⟩))
      (trainedTag lower float zero other seen ps net d) (trainedTag lower float zero other seen ps net d') := by
  rcases C133_document lower float zero other seen ps net d d' hd hd' (sameWords_of_spots ht hs h) with
    ⟨e, e', h1, h2, h3⟩ | ⟨x, h1, h2⟩
  · refine .inl ⟨e, e', h1, h2, ?_⟩
    have hn := h.length_eq
    have hn3 := h3.length_eq
    rcases trainedTag_shape hd h1 with ⟨a, b⟩ | ⟨a, b⟩
    · rcases trainedTag_shape hd' h2 with ⟨a', b'⟩ | ⟨a', b'⟩
      · exact .inl ⟨a, a', h3, b, b'⟩
      · have := b.length_eq
        rw [b'] at hn3
        simp only [List.length_nil] at hn3
        exact absurd (List.length_eq_zero_iff.1 (by omega)) a'
    · rcases trainedTag_shape hd' h2 with ⟨a', b'⟩ | ⟨a', b'⟩
      · have := b'.length_eq
        rw [b] at hn3
        simp only [List.length_nil] at hn3
        exact absurd (List.length_eq_zero_iff.1 (by omega)) a
      · exact .inr ⟨a, b, by rw [b', ht]⟩
  · exact .inr ⟨x, h1, h2⟩

/-- C159: a document in which only tags and lemmas that the tagger sets anyway are different is tagged with exactly the
same result. -/
theorem C159_annotations (d d' : Document) (hd : Built d) (hd' : Built d') (h : Retagged d d')
    (hu : List.Forall₂ (SameUnlabelled ps) d.tokens d'.tokens) :
    trainedTag lower float zero other seen ps net d' = trainedTag lower float zero other seen ps net d := by
  rcases trainedTag_two lower float zero other seen ps net hd hd' h.text h.sentences
    (h.tokens.imp (fun _ _ x => x.spot)) with ⟨e, e', h1, h2, h3⟩ | ⟨x, h1, h2⟩
  · rw [h1, h2]
    congr 1
    rcases h3 with ⟨a, a', hp, b, b'⟩ | ⟨_, a, a'⟩
    · refine (document_eq a (h.trans a') ?_).symm
      rw [List.forall₂_iff_get] at hp hu b b' ⊢
      refine ⟨hp.1, fun j j1 j2 => ?_⟩
      have p := hp.2 j j1 j2
      have q := hu.2 j (b.1 ▸ j1) (b'.1 ▸ j2)
      have r := b.2 j (b.1 ▸ j1) j1
      have r' := b'.2 j (b'.1 ▸ j2) j2
      refine ⟨?_, ?_⟩
      · by_cases hx : ∃ p ∈ ps, p.tags
        · exact p.pos hx
        · exact (r.pos hx).symm.trans ((q.pos hx).trans (r'.pos hx))
      · by_cases hx : ∃ p ∈ ps, p.lemmas
        · exact p.lemma' hx
        · exact (r.lemma' hx).symm.trans ((q.lemma' hx).trans (r'.lemma' hx))
    · rw [a, a']
  · rw [h1, h2]

/-- C159: tagging a tagged document again with the same tagger gives exactly the same document. -/
theorem C159_again (d e : Document) (hd : Built d) (h : trainedTag lower float zero other seen ps net d = .ok e) :
    e.tokens.length = d.tokens.length → trainedTag lower float zero other seen ps net e = .ok e := by
  intro hl
  rcases trainedTag_shape hd h with ⟨h1, h2⟩ | ⟨h1, h2⟩
  · rw [C159_annotations lower float zero other seen ps net d e hd (trainedTag_built h) h1 h2, h]
  · rw [h2] at hl
    exact absurd (List.length_eq_zero_iff.1 hl.symm) h1

/-- C159: so does tagging a document once more whose words all got lost. -/
theorem C159_again_empty (d e : Document) (hd : Built d)
    (h : trainedTag lower float zero other seen ps net d = .ok e) (he : e.tokens = []) :
    trainedTag lower float zero other seen ps net e = .ok e := by
  have hb := trainedTag_built h
  have hs := hb.docOk.noSentences he
  unfold trainedTag at h ⊢
  cases hi : assembleInterp lower seen ps with
  | error x => rw [hi] at h; cases h
  | ok i =>
    simp only [tagDocument, hs, mapM', List.flatten_nil, List.map_nil]
    rw [C10_empty_list_drops_everything]
    cases e
    simp only at he hs
    rw [he, hs]

/-- C159: of two taggers only the last one matters, if it sets tags and lemmas, and the first one keeps the words. -/
theorem C159_last_wins (seen' : Seen) (ps' : List Provider) (net' : Features → Res Features)
    (hp : ∃ p ∈ ps', p.tags) (hl : ∃ p ∈ ps', p.lemmas) (d e : Document) (hd : Built d)
    (h : trainedTag lower float zero other seen ps net d = .ok e) (hn : e.tokens.length = d.tokens.length) :
    trainedTag lower float zero other seen' ps' net' e = trainedTag lower float zero other seen' ps' net' d := by
  rcases trainedTag_shape hd h with ⟨h1, h2⟩ | ⟨h1, h2⟩
  · exact C159_annotations lower float zero other seen' ps' net' d e hd (trainedTag_built h) h1
      (h2.imp (fun _ _ _ => ⟨fun hx => absurd hp hx, fun hx => absurd hl hx⟩))
  · rw [h2] at hn
    exact absurd (List.length_eq_zero_iff.1 hn.symm) h1

/-- C159: a lemmatizer and a tagger for parts of speech can be applied in any order. -/
theorem C159_order (seen' : Seen) (ps' : List Provider) (net' : Features → Res Features)
    (hp : ¬ ∃ p ∈ ps, p.tags) (hl : ¬ ∃ p ∈ ps', p.lemmas) (d a b : Document) (hd : Built d)
    (ha : trainedTag lower float zero other seen ps net d = .ok a) (hna : a.tokens.length = d.tokens.length)
    (hb : trainedTag lower float zero other seen' ps' net' d = .ok b) (hnb : b.tokens.length = d.tokens.length) :
    ∃ c, trainedTag lower float zero other seen' ps' net' a = .ok c ∧
      trainedTag lower float zero other seen ps net b = .ok c ∧ Retagged d c ∧
      c.tokens.map Token.lemma' = a.tokens.map Token.lemma' ∧ c.tokens.map Token.pos = b.tokens.map Token.pos := by
  rcases trainedTag_shape hd ha with ⟨a1, a2⟩ | ⟨a1, a2⟩
  rotate_left
  · rw [a2] at hna
    exact absurd (List.length_eq_zero_iff.1 hna.symm) a1
  rcases trainedTag_shape hd hb with ⟨b1, b2⟩ | ⟨b1, b2⟩
  rotate_left
  · rw [b2] at hnb
    exact absurd (List.length_eq_zero_iff.1 hnb.symm) b1
  rcases trainedTag_two lower float zero other seen' ps' net' hd (trainedTag_built ha) a1.text a1.sentences
    (a1.tokens.imp (fun _ _ x => x.spot)) with ⟨b', c, x1, x2, x3⟩ | ⟨x, x1, x2⟩
  rotate_left
  · rw [hb] at x1; cases x1
  rcases trainedTag_two lower float zero other seen ps net hd (trainedTag_built hb) b1.text b1.sentences
    (b1.tokens.imp (fun _ _ x => x.spot)) with ⟨a', c', y1, y2, y3⟩ | ⟨x, x1, x2⟩
  rotate_left
  · rw [ha] at x1; cases x1
  rw [hb] at x1
  rw [ha] at y1
  injection x1 with x1
  injection y1 with y1
  subst x1 y1
  rcases x3 with ⟨_, xr, xp, xd, xc⟩ | ⟨x0, x3, _⟩
  rotate_left
  · rw [x3] at hnb
    exact absurd (List.length_eq_zero_iff.1 hnb.symm) x0
  rcases y3 with ⟨_, yr, yp, yd, yc⟩ | ⟨y0, y3, _⟩
  rotate_left
  · rw [y3] at hna
    exact absurd (List.length_eq_zero_iff.1 hna.symm) y0
  have hlem : List.Forall₂ (fun u v : Token => v.lemma' = u.lemma') a.tokens c.tokens :=
    xc.imp (fun _ _ h => (h.lemma' hl).symm)
  have hpos : List.Forall₂ (fun u v : Token => u.pos = v.pos) b.tokens c.tokens := by
    by_cases hx : ∃ p ∈ ps', p.tags
    · exact xp.imp (fun _ _ h => h.pos hx)
    · refine forall₂_trans (R := fun u v : Token => u.pos = v.pos) (S := fun u v : Token => u.pos = v.pos)
        (fun _ _ _ p q => p.trans q)
        (forall₂_trans (R := fun u v : Token => u.pos = v.pos) (S := fun u v : Token => u.pos = v.pos)
        (fun _ _ _ p q => p.trans q) (forall₂_swap (fun _ _ h => (h.pos hx).symm) b2) (a2.imp (fun _ _ h => h.pos hp)))
        (xc.imp (fun _ _ h => h.pos hx))
  have hlem' : List.Forall₂ (fun u v : Token => u.lemma' = v.lemma') a.tokens c'.tokens := by
    by_cases hx : ∃ p ∈ ps, p.lemmas
    · exact yp.imp (fun _ _ h => h.lemma' hx)
    · refine forall₂_trans (R := fun u v : Token => u.lemma' = v.lemma') (S := fun u v : Token => u.lemma' = v.lemma')
        (fun _ _ _ p q => p.trans q)
        (forall₂_trans (R := fun u v : Token => u.lemma' = v.lemma') (S := fun u v : Token => u.lemma' = v.lemma')
        (fun _ _ _ p q => p.trans q) (forall₂_swap (fun _ _ h => (h.lemma' hx).symm) a2) (b2.imp (fun _ _ h => h.lemma' hl)))
        (yc.imp (fun _ _ h => h.lemma' hx))
  have hpos' : List.Forall₂ (fun u v : Token => u.pos = v.pos) b.tokens c'.tokens := yc.imp (fun _ _ h => h.pos hp)
  have hcc : c = c' := by
    refine document_eq (a1.trans xr) (b1.trans yr) ?_
    rw [List.forall₂_iff_get] at hlem hpos hlem' hpos' ⊢
    refine ⟨hlem.1.symm.trans hlem'.1, fun j j1 j2 => ⟨?_, ?_⟩⟩
    · exact (hpos.2 j (hpos.1 ▸ j1) j1).symm.trans (hpos'.2 j (hpos'.1 ▸ j2) j2)
    · exact (hlem.2 j (hlem.1 ▸ j1) j1).trans (hlem'.2 j (hlem'.1 ▸ j2) j2)
  refine ⟨c, x2, hcc ▸ y2, a1.trans xr, ?_, ?_⟩
  · exact (forall₂_eq (List.forall₂_map_left_iff.2 (List.forall₂_map_right_iff.2 (hlem.imp (fun _ _ h => h.symm))))).symm
  · exact (forall₂_eq (List.forall₂_map_left_iff.2 (List.forall₂_map_right_iff.2 hpos))).symm

/-- C159: whatever a parser made of heads and relations, the words get the same tags and lemmas, or tagging fails in the same
way; heads and relations stay what they were. -/
theorem C159_parsed (d g : Document) (hd : Built d) (hg : Built g) (h : Reparsed d g) :
    SameOutcome (fun e r : Document => Reparsed e r ∧ (r.tokens.length = g.tokens.length → Retagged g r))
      (trainedTag lower float zero other seen ps net d) (trainedTag lower float zero other seen ps net g) := by
  rcases trainedTag_two lower float zero other seen ps net hd hg h.text h.sentences
    (h.tokens.imp (fun _ _ x => x.spot)) with ⟨e, r, h1, h2, h3⟩ | ⟨x, h1, h2⟩
  · refine .inl ⟨e, r, h1, h2, ?_⟩
    have hlen := h.tokens.length_eq
    rcases h3 with ⟨a, a', hp, b, b'⟩ | ⟨h0, a, a'⟩
    · refine ⟨⟨by rw [a'.text, h.text, a.text], by rw [a'.sentences, h.sentences, a.sentences], ?_⟩, fun _ => a'⟩
      have ht := h.tokens
      have at1 := a.tokens
      have at2 := a'.tokens
      rw [List.forall₂_iff_get] at hp b b' ht at1 at2 ⊢
      refine ⟨hp.1, fun j j1 j2 => ?_⟩
      have p := hp.2 j j1 j2
      have q := ht.2 j (b.1 ▸ j1) (b'.1 ▸ j2)
      have r := b.2 j (b.1 ▸ j1) j1
      have r' := b'.2 j (b'.1 ▸ j2) j2
      have u := at1.2 j (b.1 ▸ j1) j1
      have u' := at2.2 j (b'.1 ▸ j2) j2
      refine ⟨?_, ?_, ?_, ?_, ?_, ?_, ?_⟩
      · rw [u'.start, q.start, u.start]
      · rw [u'.stop, q.stop, u.stop]
      · rw [u'.sub, q.sub, u.sub]
      · rw [u'.repl, q.repl, u.repl]
      · by_cases hx : ∃ p ∈ ps, p.tags
        · exact (p.pos hx).symm
        · exact (r'.pos hx).symm.trans (q.pos.trans (r.pos hx))
      · by_cases hx : ∃ p ∈ ps, p.lemmas
        · exact (p.lemma' hx).symm
        · exact (r'.lemma' hx).symm.trans (q.lemma'.trans (r.lemma' hx))
      · rw [u'.extras, q.extras, u.extras]
    · subst a a'
      refine ⟨⟨rfl, rfl, .nil⟩, fun h1 => absurd (List.length_eq_zero_iff.1 ?_) h0⟩
      simp only [List.length_nil] at h1
      omega
  · exact .inr ⟨x, h1, h2⟩

/-- C159: it makes no difference whether a document is tagged first and parsed by the stub parser then, or the other way
round; if tagging fails, it fails with the same exception both times. -/
theorem C159_stub_parser (deprel : Option Str) (d : Document) (hd : Built d) :
    andThen (trainedTag lower float zero other seen ps net) (stubParse deprel) d =
      andThen (stubParse deprel) (trainedTag lower float zero other seen ps net) d := by
  obtain ⟨g, hg, hgb, hr⟩ := stubParse_reparsed hd deprel
  unfold andThen
  rw [hg]
  simp only
  rcases C159_parsed lower float zero other seen ps net d g hd hgb hr with ⟨e, r, h1, h2, h3, h4⟩ | ⟨x, h1, h2⟩
  · rw [h1, h2]
    simp only
    have he := trainedTag_built h1
    obtain ⟨ts, e1, e2, e3⟩ := stubParse_spec he.docOk deprel
    rw [e1]
    congr 1
    have hlen := h3.tokens.length_eq
    have hre : ts = r.tokens := by
      rcases Nat.eq_zero_or_pos e.tokens.length with h0 | hpos
      · rw [List.length_eq_zero_iff.1 (e2.trans h0), List.length_eq_zero_iff.1 (hlen.symm.trans h0)]
      · have hrg : Retagged g r := by
          rcases trainedTag_shape hgb h2 with ⟨a, _⟩ | ⟨_, a⟩
          · exact a
          · rw [a] at hlen
            simp only [List.length_nil] at hlen
            omega
        obtain ⟨gs, f1, f2, f3⟩ := stubParse_spec hd.docOk deprel
        rw [hg] at f1
        injection f1 with f1
        subst f1
        have hds : e.sentences = d.sentences := h3.sentences.symm.trans hrg.sentences
        have hrt := hrg.tokens
        have hgt := hr.tokens
        have h3t := h3.tokens
        simp only at hrt hgt
        have hgl := hgt.length_eq
        have hrl := hrt.length_eq
        refine List.ext_getElem? (fun j => ?_)
        by_cases hj : j < e.tokens.length
        · obtain ⟨s, hs, hs1, hs2⟩ := he.docOk.tiles.cover (Nat.zero_le j) hj
          rw [e3 s hs j hs1 hs2 e.tokens[j] (List.getElem?_eq_getElem hj)]
          have hjd : j < d.tokens.length := by omega
          have k1 := f3 s (hds ▸ hs) j hs1 hs2 d.tokens[j] (List.getElem?_eq_getElem hjd)
          have hjr : j < r.tokens.length := by omega
          rw [List.getElem?_eq_getElem hjr]
          congr 1
          have k2 := get_of_forall₂ hrt j
          rw [k1, List.getElem?_eq_getElem hjr] at k2
          have k3 := get_of_forall₂ h3t j
          rw [List.getElem?_eq_getElem hj, List.getElem?_eq_getElem hjr] at k3
          cases k2 with
          | some k2 =>
            cases k3 with
            | some k3 => exact attached_unique k2 k3
        · rw [List.getElem?_eq_none (by omega), List.getElem?_eq_none (by omega)]
    have e4 := h3.text
    have e5 := h3.sentences
    cases r
    simp only at hre e4 e5
    rw [hre, e4, e5]
  · rw [h1, h2]

end

/-- C159: the stub tagger gives the same result, whatever the tags and lemmas were before; in particular, when it is applied
for the second time. -/
theorem C159_stub_tagger (pos : Option Pos) (d d' : Document) (hd : Built d) (hd' : Built d') (h : Retagged d d') :
    stubTag pos d' = stubTag pos d := by
  obtain ⟨e, e1, e2, e3⟩ := stubTag_spec hd.docOk pos
  obtain ⟨e', f1, f2, f3⟩ := stubTag_spec hd'.docOk pos
  rw [h.text] at f3
  rw [e1, f1]
  congr 1
  refine (document_eq e2 (h.trans f2) ?_).symm
  have ht := h.tokens
  rw [List.forall₂_iff_get] at e3 f3 ht ⊢
  refine ⟨by rw [← e3.1, ← f3.1, ht.1], fun j j1 j2 => ?_⟩
  have a := e3.2 j (e3.1 ▸ j1) j1
  have b := f3.2 j (f3.1 ▸ j2) j2
  have c := ht.2 j (e3.1 ▸ j1) (f3.1 ▸ j2)
  exact ⟨a.1.trans b.1.symm, by rw [a.2, b.2, c.spot.tokText]⟩

/-- C159: so does the stub parser, whatever the heads and relations were before. -/
theorem C159_stub_parsed (deprel : Option Str) (d d' : Document) (hd : Built d) (hd' : Built d') (h : Reparsed d d') :
    stubParse deprel d' = stubParse deprel d := by
  obtain ⟨ts, e1, e2, e3⟩ := stubParse_spec hd.docOk deprel
  obtain ⟨ts', f1, f2, f3⟩ := stubParse_spec hd'.docOk deprel
  rw [e1, f1, h.text, h.sentences]
  have hl := h.tokens.length_eq
  congr 2
  refine List.ext_getElem? (fun j => ?_)
  by_cases hj : j < d.tokens.length
  · obtain ⟨s, hs, hs1, hs2⟩ := hd.docOk.tiles.cover (Nat.zero_le j) hj
    rw [e3 s hs j hs1 hs2 d.tokens[j] (List.getElem?_eq_getElem hj),
      f3 s (h.sentences ▸ hs) j hs1 hs2 d'.tokens[j] (List.getElem?_eq_getElem (by omega))]
    congr 1
    have k := get_of_forall₂ h.tokens j
    rw [List.getElem?_eq_getElem hj, List.getElem?_eq_getElem (by omega)] at k
    cases k with
    | some k => exact attached_congr k
  · rw [List.getElem?_eq_none (by omega), List.getElem?_eq_none (by omega)]

/-- C159: applied twice, the stub tagger and the stub parser give what they give when applied once. -/
theorem C159_stub_twice (pos : Option Pos) (deprel : Option Str) (d : Document) (hd : Built d) :
    andThen (stubTag pos) (stubTag pos) d = stubTag pos d ∧
      andThen (stubParse deprel) (stubParse deprel) d = stubParse deprel d := by
  constructor
  · obtain ⟨e, e1, e2, _⟩ := stubTag_spec hd.docOk pos
    have hb : Built e := by
      unfold stubTag at e1
      split at e1
      · cases e1
      · exact fromDocument_built e1
    unfold andThen
    rw [e1]
    simp only
    rw [C159_stub_tagger pos d e hd hb e2, e1]
  · obtain ⟨g, hg, hgb, hr⟩ := stubParse_reparsed hd deprel
    unfold andThen
    rw [hg]
    simp only
    rw [C159_stub_parsed deprel d g hd hgb hr, hg]

/-! ### Examples -/

/-- A tagger that changes a document; applied to the result, it changes nothing any more. -/
example : (trainedTag id Demo.float 0 (Demo.ptok 0) (fun _ => [Demo.goldDoc]) Demo.wordProviders Demo.echoNet
      Demo.blindDoc).toOption ≠ some Demo.blindDoc ∧
    ∃ e, trainedTag id Demo.float 0 (Demo.ptok 0) (fun _ => [Demo.goldDoc]) Demo.wordProviders Demo.echoNet
      Demo.blindDoc = .ok e ∧ e.tokens.length = Demo.blindDoc.tokens.length ∧
      trainedTag id Demo.float 0 (Demo.ptok 0) (fun _ => [Demo.goldDoc]) Demo.wordProviders Demo.echoNet e = .ok e := by
  refine ⟨by decide +kernel, _, rfl, by decide +kernel, ?_⟩
  exact C159_again id Demo.float 0 (Demo.ptok 0) (fun _ => [Demo.goldDoc]) Demo.wordProviders Demo.echoNet Demo.blindDoc _
    Demo.blind_built rfl (by decide +kernel)

/-- Parsing changes the document, too, and commutes with that tagger. -/
example : (stubParse (some "x".toList) Demo.blindDoc).toOption ≠ some Demo.blindDoc ∧
    andThen (trainedTag id Demo.float 0 (Demo.ptok 0) (fun _ => [Demo.goldDoc]) Demo.wordProviders Demo.echoNet)
      (stubParse (some "x".toList)) Demo.blindDoc =
    andThen (stubParse (some "x".toList))
      (trainedTag id Demo.float 0 (Demo.ptok 0) (fun _ => [Demo.goldDoc]) Demo.wordProviders Demo.echoNet) Demo.blindDoc :=
  ⟨by decide +kernel, C159_stub_parser id Demo.float 0 (Demo.ptok 0) (fun _ => [Demo.goldDoc]) Demo.wordProviders
    Demo.echoNet _ _ Demo.blind_built⟩

namespace Demo

/-- The tag is the label. -/
def tagProviders : List Provider := [.trainable "w".toList 0 false, .posDict "l".toList .joint]

/-- A network that gives all words the first class. -/
def zeroNet (f : Features) : Res Features :=
  match f.get? "w".toList with
  | some (.list rows) => .ok (Dict.ofList [("l".toList, .list (rows.map (fun r => match r with
      | .list ws => .list (ws.map (fun _ => .list [.int 0]))
      | x => x)))])
  | _ => .error .key

end Demo

/-- A lemmatizer and a tagger, in both orders. -/
example : ∃ a b c, trainedTag id Demo.float 0 (Demo.ptok 0) (fun _ => [Demo.goldDoc]) Demo.wordProviders Demo.echoNet
      Demo.blindDoc = .ok a ∧
    trainedTag id Demo.float 0 (Demo.ptok 0) (fun _ => [Demo.goldDoc]) Demo.tagProviders Demo.echoNet Demo.blindDoc = .ok b ∧
    a ≠ b ∧ c ≠ a ∧ c ≠ b ∧
    trainedTag id Demo.float 0 (Demo.ptok 0) (fun _ => [Demo.goldDoc]) Demo.tagProviders Demo.echoNet a = .ok c ∧
    trainedTag id Demo.float 0 (Demo.ptok 0) (fun _ => [Demo.goldDoc]) Demo.wordProviders Demo.echoNet b = .ok c := by
  refine ⟨_, _, _, rfl, rfl, ?_, ?_, ?_, rfl, ?_⟩
  · decide +kernel
  · decide +kernel
  · decide +kernel
  · obtain ⟨c, h1, h2, _⟩ := C159_order id Demo.float 0 (Demo.ptok 0) (fun _ => [Demo.goldDoc]) Demo.wordProviders
      Demo.echoNet (fun _ => [Demo.goldDoc]) Demo.tagProviders Demo.echoNet
      (by simp [Demo.wordProviders, Provider.tags]) (by simp [Demo.tagProviders, Provider.lemmas]) Demo.blindDoc _ _
      Demo.blind_built rfl (by decide +kernel) rfl (by decide +kernel)
    exact h2.trans (h1.symm.trans rfl)

/-- C159: two taggers that set the same do not commute, and the last one wins. -/
theorem C159_order_matters : ∃ a b c c', trainedTag id Demo.float 0 (Demo.ptok 0) (fun _ => [Demo.goldDoc])
      Demo.wordProviders Demo.echoNet Demo.blindDoc = .ok a ∧
    trainedTag id Demo.float 0 (Demo.ptok 0) (fun _ => [Demo.goldDoc]) Demo.wordProviders Demo.zeroNet Demo.blindDoc = .ok b ∧
    trainedTag id Demo.float 0 (Demo.ptok 0) (fun _ => [Demo.goldDoc]) Demo.wordProviders Demo.zeroNet a = .ok c ∧
    trainedTag id Demo.float 0 (Demo.ptok 0) (fun _ => [Demo.goldDoc]) Demo.wordProviders Demo.echoNet b = .ok c' ∧
    c = b ∧ c' = a ∧ a ≠ b := by
  refine ⟨_, _, _, _, rfl, rfl, rfl, rfl, ?_, ?_, ?_⟩ <;> decide +kernel

end Verif
