import Verif.Spec.Interchange
import Verif.Props.Datamodel4
import Verif.Props.Evaluation
import Verif.Proofs.Resave
import Verif.Props.Pipeline
import Verif.Props.Again

/-! # Equal documents are interchangeable -/

namespace Verif

/-- Tokens that are written alike. -/
def Alike (a b : Token) : Prop := SameButSentHead a b ∧ a.headSent = b.headSent

theorem Alike.tokText {a b : Token} (h : Alike a b) (text : Str) : tokText text a = tokText text b := by
  simp only [Verif.tokText, docText, h.1.start, h.1.stop, h.1.repl]

theorem Alike.spaceAfter {a b : Token} (h : Alike a b) (text : Str) : spaceAfter text a = spaceAfter text b := by
  simp only [Verif.spaceAfter, h.1.stop]

theorem featsToString_congr {d e : Dict Str Str} (h : SameMap d e) (cols : Cols) :
    featsToString (extract cols colFEATS (some d)) = featsToString (extract cols colFEATS (some e)) := by
  have hp : d.entries.Perm e.entries := Dict.pyEq_perm.mp (Dict.pyEq_iff.mpr h)
  have h1 : d.entries.isEmpty = e.entries.isEmpty := by
    rw [Bool.eq_iff_iff, List.isEmpty_iff, List.isEmpty_iff, ← List.length_eq_zero_iff, ← List.length_eq_zero_iff,
      hp.length_eq]
  unfold extract
  split
  · simp only [featsToString]
    rw [h1, pySorted_eq_of_perm (· ≤ ·) (fun a b => le_total a b) (fun a b c => le_trans) (fun a b _ _ => le_antisymm)
      (hp.map featStr)]
  · rfl

theorem toConll_alike {a b : Token} (h : Alike a b) (cols : Cols) (text : Str) (index : Nat) (ws fake : Bool) :
    toConll cols text Token.headSent index a ws fake = toConll cols text Token.headSent index b ws fake := by
  unfold toConll
  rw [h.1.lemma', h.1.deprel, h.2, h.tokText, h.spaceAfter]
  have hp := h.1.pos
  generalize a.pos = x at hp
  generalize b.pos = y at hp
  cases hp with
  | none => rfl
  | some hp => simp only [hp.1, hp.2.1, featsToString_congr hp.2.2]

/-- Writer states that go on alike. -/
structure WAlike (s t : WState) : Prop where
  out : s.out = t.out
  index : s.index = t.index
  pending : Option.Rel (fun p q : Nat × Token × List Token => p.1 = q.1 ∧ Alike p.2.1 q.2.1 ∧
    List.Forall₂ Alike p.2.2 q.2.2) s.pending t.pending

/-- Both fail with the same error or both succeed with states that go on alike. -/
inductive RAlike : Res WState → Res WState → Prop
  | ok {s t : WState} : WAlike s t → RAlike (.ok s) (.ok t)
  | error (e : Err) : RAlike (.error e) (.error e)

theorem forM'_alike {α : Type} {R : α → α → Prop} {f g : WState → α → Res WState}
    (hf : ∀ s t a b, WAlike s t → R a b → RAlike (f s a) (g t b)) {l m : List α} (h : List.Forall₂ R l m) {s t : WState}
    (hs : WAlike s t) : RAlike (forM' f s l) (forM' g t m) := by
  induction h generalizing s t with
  | nil => exact .ok hs
  | cons r _ ih =>
    have := hf _ _ _ _ hs r
    simp only [forM']
    revert this
    generalize f s _ = x
    generalize g t _ = y
    rintro (h | e)
    · exact ih h
    · exact .error e

theorem writeRegular_alike {cols : Cols} {text : Str} {ws : Bool} {s t : WState} {a b : Token} (hs : WAlike s t)
    (h : Alike a b) : RAlike (writeRegular cols text ws s a) (writeRegular cols text ws t b) := by
  unfold writeRegular
  rw [toConll_alike h, hs.index]
  split
  · exact .error _
  · exact .ok ⟨by rw [hs.out], rfl, hs.pending⟩

theorem writeMultiword_alike {cols : Cols} {text : Str} {s t : WState} {start : Nat} {a b : Token} {l m : List Token}
    (hs : WAlike s t) (h : Alike a b) (hl : List.Forall₂ Alike l m) :
    RAlike (writeMultiword cols text s start a l) (writeMultiword cols text t start b m) := by
  unfold writeMultiword
  have h1 : docText text a = docText text b := by simp only [docText, h.1.start, h.1.stop]
  rw [h1, h.spaceAfter, hl.length_eq]
  refine forM'_alike (R := Alike) (f := writeRegular cols text false) (g := writeRegular cols text false)
    (fun s t a b hs h => writeRegular_alike hs h) hl ⟨?_, hs.index, hs.pending⟩
  simp only [hs.out]

theorem writeTokenRegular_alike {cols : Cols} {text : Str} {s t : WState} {a b : Token} (hs : WAlike s t)
    (h : Alike a b) : RAlike (writeTokenRegular cols text s a) (writeTokenRegular cols text t b) := by
  unfold writeTokenRegular
  have : a.isMultiword = b.isMultiword := by simp only [Token.isMultiword, h.1.repl]
  rw [this]
  split
  · exact .ok ⟨hs.out, hs.index, .some ⟨by rw [hs.index], h, .cons h .nil⟩⟩
  · exact writeRegular_alike ⟨hs.out, hs.index, .none⟩ h

theorem writeToken_alike {cols : Cols} {text : Str} {s t : WState} {a b : Token} (hs : WAlike s t)
    (h : Alike a b) : RAlike (writeToken cols text s a) (writeToken cols text t b) := by
  unfold writeToken
  have hp := hs.pending
  revert hp
  generalize hx : s.pending = x
  generalize hy : t.pending = y
  rintro (hp | _)
  · rename_i p q
    obtain ⟨n, u, l⟩ := p
    obtain ⟨n', u', l'⟩ := q
    obtain ⟨h1, h2, h3⟩ := hp
    simp only at h1 h2 h3
    subst h1
    have hc : u.coincides a = u'.coincides b := by
      simp only [Token.coincides, h2.1.start, h2.1.stop, h.1.start, h.1.stop]
    simp only [hc]
    split
    · exact .ok ⟨hs.out, hs.index, .some ⟨rfl, h2, List.rel_append h3 (.cons h .nil)⟩⟩
    · have := writeMultiword_alike (cols := cols) (text := text) (start := n) hs h2 h3
      revert this
      generalize writeMultiword cols text s n u l = x
      generalize writeMultiword cols text t n u' l' = y
      rintro (hz | e)
      · exact writeTokenRegular_alike hz h
      · exact .error e
  · exact writeTokenRegular_alike hs h

theorem writeEnd_alike {cols : Cols} {text : Str} {s t : WState} (hs : WAlike s t) :
    RAlike (writeEnd cols text s) (writeEnd cols text t) := by
  unfold writeEnd
  have hp := hs.pending
  revert hp
  generalize hx : s.pending = x
  generalize hy : t.pending = y
  rintro (hp | _)
  · rename_i p q
    obtain ⟨n, u, l⟩ := p
    obtain ⟨n', u', l'⟩ := q
    obtain ⟨h1, h2, h3⟩ := hp
    simp only at h1 h2 h3
    subst h1
    have := writeMultiword_alike (cols := cols) (text := text) (start := n) hs h2 h3
    simp only
    revert this
    generalize writeMultiword cols text s n u l = x
    generalize writeMultiword cols text t n u' l' = y
    rintro (hz | e)
    · exact .ok ⟨by rw [hz.out], rfl, hz.pending⟩
    · exact .error e
  · exact .ok ⟨by rw [hs.out], rfl, .none⟩

theorem writeNth_alike {cols : Cols} {d e : Document} (hd : Built d) (he : Built e) (ht : d.text = e.text)
    (hss : d.sentences = e.sentences) (h : List.Forall₂ Alike d.tokens e.tokens) {s t : WState} (hs : WAlike s t) (i : Nat) :
    RAlike (writeNth cols d s i) (writeNth cols e t i) := by
  unfold writeNth
  by_cases hi : i < d.sentences.length
  · rw [getSentence_nat hd.docOk hi, getSentence_nat he.docOk (hss ▸ hi)]
    simp only [writeSentence]
    have hl : List.Forall₂ Alike (d.sentenceTokens d.sentences[i]) (e.sentenceTokens (e.sentences[i]'(hss ▸ hi))) := by
      have hz : e.sentences[i]'(hss ▸ hi) = d.sentences[i] := by simp only [hss]
      rw [hz]
      unfold Document.sentenceTokens
      exact List.forall₂_take _ (List.forall₂_drop _ h)
    have := forM'_alike (R := Alike) (f := writeToken cols e.text) (g := writeToken cols e.text)
      (fun s t a b hs h => writeToken_alike hs h) hl hs
    rw [ht]
    revert this
    generalize forM' (writeToken cols e.text) s _ = x
    generalize forM' (writeToken cols e.text) t _ = y
    rintro (hz | e)
    · exact writeEnd_alike hz
    · exact .error e
  · have hn : d.sentences[i]? = none := List.getElem?_eq_none (by omega)
    have hn' : e.sentences[i]? = none := by rw [← hss]; exact hn
    unfold Document.getSentence
    rw [pyGet_nat, pyGet_nat, hn, hn']
    exact .error _

theorem writeDocument_alike {cols : Cols} {d e : Document} (hd : Built d) (he : Built e) (ht : d.text = e.text)
    (hss : d.sentences = e.sentences) (h : List.Forall₂ Alike d.tokens e.tokens) (out : Str) :
    writeDocument cols out d = writeDocument cols out e := by
  unfold writeDocument
  have := forM'_alike (R := Eq) (f := writeNth cols d) (g := writeNth cols e)
    (fun s t a b hs hab => by subst hab; exact writeNth_alike hd he ht hss h hs a)
    (l := List.range d.sentences.length) (m := List.range e.sentences.length)
    (by rw [hss]; exact List.forall₂_refl _) (s := { out }) (t := { out }) ⟨rfl, rfl, .none⟩
  revert this
  generalize forM' (writeNth cols d) { out } _ = x
  generalize forM' (writeNth cols e) { out } _ = y
  rintro (hz | e)
  · simp only [hz.out]
  · rfl

/-- C170: equal documents are written alike, if roots of the document are roots of their sentences.
(Missing for the full claim: other documents, see `C170_refuted`.) -/
theorem C170_written_partial (columns : Cols) {ds es : List Document} (hd : ∀ d ∈ ds, Built d) (he : ∀ e ∈ es, Built e)
    (hrd : RootsAgree ds) (hre : RootsAgree es) (h : EqualDocs ds es) : writeToStr columns ds = writeToStr columns es := by
  unfold writeToStr
  generalize ([] : Str) = out
  induction h generalizing out with
  | nil => rfl
  | @cons d e ds es heq _ ih =>
    obtain ⟨h1, h2, h3⟩ := C12_sees_everything_when_roots_agree (hd d (by simp)) (he e (by simp))
      (hrd d (by simp)) (hre e (by simp)) heq
    simp only [forM']
    rw [writeDocument_alike (hd d (by simp)) (he e (by simp)) h1 h2 h3]
    split
    · exact ih (fun d hm => hd d (by simp [hm])) (fun d hm => he d (by simp [hm])) (fun d hm => hrd d (by simp [hm]))
        (fun d hm => hre d (by simp [hm])) _
    · rfl

/-- C170: testers ask the tagger the same about equal documents. -/
theorem C170_blind {ds es : List Document} (hd : ∀ d ∈ ds, Built d) (he : ∀ e ∈ es, Built e) (h : EqualDocs ds es) :
    ∃ xs ys, prepareTestData ds = .ok xs ∧ prepareTestData es = .ok ys ∧ (∀ x ∈ xs, Built x) ∧ (∀ y ∈ ys, Built y) ∧
      EqualDocs xs ys := by
  obtain ⟨xs, x1, x2⟩ := C53_blind hd
  obtain ⟨ys, y1, y2⟩ := C53_blind he
  have built : ∀ {R : Document → Document → Prop} {as bs : List Document},
      List.Forall₂ (fun d o => Built o ∧ R d o) as bs → ∀ b ∈ bs, Built b := by
    intro R as bs h
    induction h with
    | nil => simp
    | cons a _ ih =>
      intro b hb
      rcases List.mem_cons.1 hb with rfl | hb
      · exact a.1
      · exact ih b hb
  refine ⟨xs, ys, x1, y1, built x2, built y2, ?_⟩
  clear x1 y1 hd he
  unfold EqualDocs at *
  induction h generalizing xs ys with
  | nil => cases x2; cases y2; exact .nil
  | @cons d e ds es heq _ ih =>
    cases x2 with
    | @cons _ x _ xs a x2 =>
      cases y2 with
      | @cons _ y _ ys b y2 =>
        refine .cons ?_ (ih _ x2 _ y2)
        obtain ⟨h1, h2, h3⟩ := Document.pyEq_iff.1 heq
        refine Document.pyEq_iff.2 ⟨by rw [a.2.1, b.2.1, h1], ?_, by rw [a.2.2.1, b.2.2.1, h3]⟩
        have ha := a.2.2.2
        have hb := b.2.2.2
        rw [List.forall₂_iff_get] at h2 ha hb ⊢
        refine ⟨by rw [← ha.1, h2.1, hb.1], fun i hi hi' => ?_⟩
        have k1 := h2.2 i (by rw [ha.1]; exact hi) (by rw [hb.1]; exact hi')
        obtain ⟨p1, p2, p3, p4, p5, p6, p7, p8, p9, _⟩ := ha.2 i (by rw [ha.1]; exact hi) hi
        obtain ⟨q1, q2, q3, q4, q5, q6, q7, q8, q9, _⟩ := hb.2 i (by rw [hb.1]; exact hi') hi'
        exact ⟨by rw [p1, q1, k1.start], by rw [p2, q2, k1.stop], by rw [p6, q6]; exact .none, by rw [p7, q7],
          by rw [p8, q8], by rw [p3, q3, k1.sub], by rw [p4, q4, k1.repl], by rw [p9, q9], by rw [p5, q5]; exact k1.extras⟩

/-- C170: a tagger whose answers about equal documents are written alike has the same scores on equal gold documents, or
fails with the same error, under the condition of `C170_written_partial`. -/
theorem C170_scores_partial (lower : Str → Str) (columns : Cols) (depth : Nat) {ds es : List Document}
    (hd : ∀ d ∈ ds, Built d) (he : ∀ e ∈ es, Built e) (hrd : RootsAgree ds) (hre : RootsAgree es) (h : EqualDocs ds es)
    (tag : List Document → Res (List Document))
    (htag : ∀ xs ys, (∀ x ∈ xs, Built x) → (∀ y ∈ ys, Built y) → EqualDocs xs ys → writtenAnswers columns tag xs = writtenAnswers columns tag ys) :
    testDataSet lower columns depth ds tag = testDataSet lower columns depth es tag := by
  obtain ⟨xs, ys, h1, h2, k1, k2, h3⟩ := C170_blind hd he h
  have hw := C170_written_partial columns hd he hrd hre h
  have ht := htag xs ys k1 k2 h3
  unfold testDataSet testTagger
  rw [h1, h2]
  have hi : convertToInternal columns depth ds = convertToInternal columns depth es := by
    unfold convertToInternal; rw [hw]
  simp only [hi]
  unfold writtenAnswers at ht
  unfold convertToInternal
  cases hx : tag xs with
  | error e =>
    cases hy : tag ys with
    | error e' => rw [hx, hy] at ht; simp only [Except.error.injEq] at ht; simp only [ht]
    | ok q => rw [hx, hy] at ht; simp only at ht; simp only [← ht]
  | ok p =>
    cases hy : tag ys with
    | error e' => rw [hx, hy] at ht; simp only at ht; simp only [ht]
    | ok q => rw [hx, hy] at ht; simp only at ht; simp only [ht]

/-- C170: roots agree in every document without sentence heads below -1 (as in files without negative numbers in the
column HEAD). -/
theorem C170_roots {d : Document} (hd : Built d) (h : ∀ t ∈ d.tokens, ∀ s, t.headSent = some s → -1 ≤ s) :
    RootsAgree [d] := by
  intro d' hm t ht hr
  rw [List.mem_singleton.1 hm] at ht
  obtain ⟨text, tokens, sents, v, hn⟩ := hd
  obtain ⟨l, _, _, _, hh⟩ := C06_heads_agree hn
  obtain ⟨j, hj, rfl⟩ := List.mem_iff_getElem.mp ht
  obtain ⟨s, hs, c1, c2⟩ := (show Built d from ⟨_, _, _, _, hn⟩).docOk.tiles.cover (Nat.zero_le j) hj
  obtain ⟨t0, t, g1, g2, _, a1, a2, a3⟩ := hh s hs j c1 c2
  rw [List.getElem?_eq_getElem hj] at g2
  injection g2 with g2
  rw [g2] at hr ht ⊢
  cases hr0 : t0.isRoot with
  | true => exact (a2 hr0).2
  | false =>
    cases hh0 : t0.hasHead with
    | false => rw [(a1 hh0).1] at hr; cases hr
    | true =>
      obtain ⟨a, b1, b2, _⟩ := a3 hh0 hr0
      rw [b2] at hr
      injection hr with hr
      have := h t ht a b1
      rw [b1, show a = -1 by omega]

/-- Equal documents that are given the same tags and lemmas are equal, and then roots agree in both of them. -/
theorem retagged_equal {d d' e e' : Document} (hd : Built d) (hd' : Built d') (h : d.pyEq d' = true) (he : Retagged d e)
    (he' : Retagged d' e') (hm : List.Forall₂ (fun t t' : Token => Option.Rel SamePos t.pos t'.pos ∧ t.lemma' = t'.lemma')
      e.tokens e'.tokens) : e.pyEq e' = true := by
  obtain ⟨h1, h2, h3, h4⟩ := C12_equality_sees_everything_partial hd hd' h
  refine Document.pyEq_iff.2 ⟨by rw [he.text, he'.text, h1], ?_, by rw [he.sentences, he'.sentences, h2]⟩
  have k := he.tokens
  have k' := he'.tokens
  rw [List.forall₂_iff_get] at k k' hm ⊢
  refine ⟨hm.1, fun i hi hi' => ?_⟩
  have a := k.2 i (k.1 ▸ hi) hi
  have a' := k'.2 i (k'.1 ▸ hi') hi'
  obtain ⟨m1, m2⟩ := hm.2 i hi hi'
  obtain ⟨b, c⟩ := h4 i _ _ (List.getElem?_eq_getElem (k.1 ▸ hi)) (List.getElem?_eq_getElem (k'.1 ▸ hi'))
  simp only [List.get_eq_getElem] at a a' m1 m2 ⊢
  refine ⟨by rw [a.start, a'.start, b.start], by rw [a.stop, a'.stop, b.stop], m1, m2,
    by rw [a.deprel, a'.deprel, b.deprel], by rw [a.sub, a'.sub, b.sub], by rw [a.repl, a'.repl, b.repl], ?_,
    by rw [a.extras, a'.extras]; exact b.extras⟩
  have p := a.head
  have p' := a'.head
  unfold KeepsHead at p p'
  by_cases hr : (d.tokens[i]'(k.1 ▸ hi)).headDoc = some (-1)
  · have hr' : (d'.tokens[i]'(k'.1 ▸ hi')).headDoc = some (-1) := by rw [← b.headDoc]; exact hr
    rw [if_pos (by simp [Token.isRoot, hr])] at p
    rw [if_pos (by simp [Token.isRoot, hr'])] at p'
    rw [p.1, p'.1]
  · have hc := c hr
    have hiso : (d.tokens[i]'(k.1 ▸ hi)).isRoot = (d'.tokens[i]'(k'.1 ▸ hi')).isRoot := by
      simp only [Token.isRoot, hc, b.headDoc]
    rw [hiso] at p
    split at p
    · rename_i hz
      rw [if_pos hz] at p'
      rw [p.1, p'.1]
    · rename_i hz
      rw [if_neg hz] at p'
      rw [p.1, p'.1, b.headDoc]

theorem retagged_roots {d e : Document} (he : Retagged d e) :
    ∀ t ∈ e.tokens, t.headDoc = some (-1) → t.headSent = some (-1) := by
  intro t ht hr
  obtain ⟨i, hi, rfl⟩ := List.getElem_of_mem ht
  have k := he.tokens
  rw [List.forall₂_iff_get] at k
  have p := (k.2 i (k.1 ▸ hi) hi).head
  simp only [List.get_eq_getElem] at p
  unfold KeepsHead at p
  split at p
  · exact p.2
  · rename_i hz
    rw [p.1] at hr
    exact absurd (by simp [Token.isRoot, hr]) hz

/-- What holds for the answers of taggers to equal documents. -/
def AnswersEqual (e e' : Document) : Prop := Built e ∧ Built e' ∧ e.pyEq e' = true ∧
  (∀ t ∈ e.tokens, t.headDoc = some (-1) → t.headSent = some (-1)) ∧
  ∀ t ∈ e'.tokens, t.headDoc = some (-1) → t.headSent = some (-1)

theorem answers_written (columns : Cols) {f : Document → Res Document} {xs ys : List Document}
    (h : List.Forall₂ (fun x y => SameOutcome AnswersEqual (f x) (f y)) xs ys) :
    writtenAnswers columns (mapM' f) xs = writtenAnswers columns (mapM' f) ys := by
  have h' : OutRel (List.Forall₂ AnswersEqual) (mapM' f xs) (mapM' f ys) := mapM'_outRel (h.imp fun x y hxy => by
    rcases hxy with ⟨a, b, e1, e2, hab⟩ | ⟨e, e1, e2⟩
    · rw [e1, e2]; exact .ok hab
    · rw [e1, e2]; exact .error e)
  unfold writtenAnswers
  rcases h'.elim with ⟨es, es', e1, e2, hs⟩ | ⟨e, e1, e2⟩
  · rw [e1, e2]
    simp only
    have left : ∀ {as bs : List Document}, List.Forall₂ AnswersEqual as bs → ∀ a ∈ as, ∃ b, AnswersEqual a b := by
      intro as bs h
      induction h with
      | nil => simp
      | cons r _ ih =>
        intro a ha
        rcases List.mem_cons.1 ha with rfl | ha
        · exact ⟨_, r⟩
        · exact ih a ha
    have right : ∀ {as bs : List Document}, List.Forall₂ AnswersEqual as bs → ∀ b ∈ bs, ∃ a, AnswersEqual a b := by
      intro as bs h
      induction h with
      | nil => simp
      | cons r _ ih =>
        intro a ha
        rcases List.mem_cons.1 ha with rfl | ha
        · exact ⟨_, r⟩
        · exact ih a ha
    refine C170_written_partial columns (fun e he => ?_) (fun e he => ?_) (fun e he => ?_) (fun e he => ?_)
      (hs.imp fun _ _ r => r.2.2.1)
    · obtain ⟨_, r⟩ := left hs e he; exact r.1
    · obtain ⟨_, r⟩ := right hs e he; exact r.2.1
    · obtain ⟨_, r⟩ := left hs e he; exact r.2.2.2.1
    · obtain ⟨_, r⟩ := right hs e he; exact r.2.2.2.2
  · rw [e1, e2]

theorem mem_equalDocs {R : Document → Document → Prop} {xs ys : List Document} (hx : ∀ x ∈ xs, Built x)
    (hy : ∀ y ∈ ys, Built y) (h : EqualDocs xs ys)
    (hR : ∀ x y, Built x → Built y → x.pyEq y = true → R x y) : List.Forall₂ R xs ys := by
  unfold EqualDocs at h
  induction h with
  | nil => exact .nil
  | cons r _ ih =>
    exact .cons (hR _ _ (hx _ (by simp)) (hy _ (by simp)) r) (ih (fun x hm => hx x (by simp [hm])) (fun x hm => hy x (by simp [hm])))

/-- C170: the stub tagger makes equal documents of equal documents; its answers are written alike. -/
theorem C170_stub (columns : Cols) (pos : Option Pos) {xs ys : List Document} (hx : ∀ x ∈ xs, Built x)
    (hy : ∀ y ∈ ys, Built y) (h : EqualDocs xs ys) :
    List.Forall₂ (fun x y => SameOutcome (fun e e' : Document => e.pyEq e' = true) (stubTag pos x) (stubTag pos y)) xs ys ∧
    writtenAnswers columns (stubTagAll pos) xs = writtenAnswers columns (stubTagAll pos) ys := by
  have key : ∀ x y : Document, Built x → Built y → x.pyEq y = true →
      SameOutcome AnswersEqual (stubTag pos x) (stubTag pos y) := by
    intro x y hx hy hxy
    obtain ⟨e, e1, e2, e3⟩ := stubTag_spec hx.docOk pos
    obtain ⟨e', f1, f2, f3⟩ := stubTag_spec hy.docOk pos
    have built : ∀ {x e : Document}, stubTag pos x = .ok e → Built e := by
      intro x e h
      unfold stubTag at h
      split at h
      · cases h
      · exact fromDocument_built h
    refine .inl ⟨e, e', e1, f1, built e1, built f1, retagged_equal hx hy hxy e2 f2 ?_, retagged_roots e2, retagged_roots f2⟩
    obtain ⟨q1, q2, _⟩ := Document.pyEq_iff.1 hxy
    rw [List.forall₂_iff_get] at e3 f3 q2 ⊢
    refine ⟨by rw [← e3.1, q2.1, f3.1], fun i hi hi' => ?_⟩
    have a := e3.2 i (e3.1 ▸ hi) hi
    have b := f3.2 i (f3.1 ▸ hi') hi'
    have c := q2.2 i (e3.1 ▸ hi) (f3.1 ▸ hi')
    rw [a.1, b.1, a.2, b.2]
    refine ⟨samePos_refl pos, ?_⟩
    simp only [tokText, docText, q1, c.start, c.stop, c.repl]
  refine ⟨?_, answers_written columns (mem_equalDocs hx hy h key)⟩
  refine mem_equalDocs hx hy h fun x y a b c => ?_
  rcases key x y a b c with ⟨e, e', k1, k2, k3⟩ | k
  · exact .inl ⟨e, e', k1, k2, k3.2.2.1⟩
  · exact .inr k

/-- C170: a trained tagger, whatever its network answers, makes equal documents of equal documents or fails in the same
way; its answers are written alike. -/
theorem C170_trained {F : Type} (lower : Str → Str) (float : Str → Res F) (zero : F) (other : TextToken) (seen : Seen)
    (ps : List Provider) (net : Features → Res Features) (columns : Cols) {xs ys : List Document}
    (hx : ∀ x ∈ xs, Built x) (hy : ∀ y ∈ ys, Built y) (h : EqualDocs xs ys) :
    List.Forall₂ (fun x y => SameOutcome (fun e e' : Document => e.pyEq e' = true)
      (trainedTag lower float zero other seen ps net x) (trainedTag lower float zero other seen ps net y)) xs ys ∧
    writtenAnswers columns (mapM' (trainedTag lower float zero other seen ps net)) xs =
      writtenAnswers columns (mapM' (trainedTag lower float zero other seen ps net)) ys := by
  have key : ∀ x y : Document, Built x → Built y → x.pyEq y = true →
      SameOutcome AnswersEqual (trainedTag lower float zero other seen ps net x)
        (trainedTag lower float zero other seen ps net y) := by
    intro x y hx hy hxy
    obtain ⟨q1, q2, q3⟩ := Document.pyEq_iff.1 hxy
    rcases trainedTag_two lower float zero other seen ps net hx hy q1.symm q3.symm
      (q2.imp fun a b r => ⟨r.start.symm, r.stop.symm, r.sub.symm, r.repl.symm⟩) with ⟨e, e', h1, h2, h3⟩ | k
    · refine .inl ⟨e, e', h1, h2, trainedTag_built h1, trainedTag_built h2, ?_⟩
      rcases h3 with ⟨a, a', p, u, u'⟩ | ⟨_, rfl, rfl⟩
      · refine ⟨retagged_equal hx hy hxy a a' ?_, retagged_roots a, retagged_roots a'⟩
        rw [List.forall₂_iff_get] at p u u' q2 ⊢
        refine ⟨p.1, fun i hi hi' => ?_⟩
        have p := p.2 i hi hi'
        have r := u.2 i (u.1 ▸ hi) hi
        have r' := u'.2 i (u'.1 ▸ hi') hi'
        have c := q2.2 i (u.1 ▸ hi) (u'.1 ▸ hi')
        constructor
        · by_cases ht : ∃ p ∈ ps, p.tags
          · rw [p.pos ht]; exact samePos_refl _
          · rw [← r.pos ht, ← r'.pos ht]; exact c.pos
        · by_cases ht : ∃ p ∈ ps, p.lemmas
          · exact p.lemma' ht
          · rw [← r.lemma' ht, ← r'.lemma' ht]; exact c.lemma'
      · exact ⟨Document.pyEq_iff.2 ⟨rfl, .nil, rfl⟩, by simp, by simp⟩
    · exact .inr k
  refine ⟨?_, answers_written columns (mem_equalDocs hx hy h key)⟩
  refine mem_equalDocs hx hy h fun x y a b c => ?_
  rcases key x y a b c with ⟨e, e', k1, k2, k3⟩ | k
  · exact .inl ⟨e, e', k1, k2, k3.2.2.1⟩
  · exact .inr k

namespace Demo

/-- Two sentences of one word each; the second one says that its head is two words before the sentence. -/
def oddRoot (h : Int) : Document :=
  ⟨['a', 'b'], [{ start := 0, stop := 1 }, { start := 1, stop := 2, headDoc := some (-1), headSent := some h }],
    [{ start := 0, stop := 1 }, { start := 1, stop := 2 }]⟩

/-- Features in two orders. -/
def orderedFeats (l : List (Str × Str)) : Document :=
  ⟨['a'], [{ start := 0, stop := 1, pos := some ⟨some ['N'], none, Dict.ofList l⟩ }], [{ start := 0, stop := 1 }]⟩

end Demo

/-- C170 is false for documents with a negative sentence head that leads to the root of the document: two equal documents,
accepted by the validation, are written differently. -/
theorem C170_refuted : ∃ d e : Document, BuiltValid d ∧ BuiltValid e ∧ d.pyEq e = true ∧
    ∃ x y, writeToStr defaultCols [d] = .ok x ∧ writeToStr defaultCols [e] = .ok y ∧ x ≠ y := by
  refine ⟨Demo.oddRoot (-1), Demo.oddRoot (-2),
    ⟨['a', 'b'], [{ start := 0, stop := 1 }, { start := 1, stop := 2, headSent := some (-1) }],
      some [{ start := 0, stop := 1 }, { start := 1, stop := 2 }], by decide⟩,
    ⟨['a', 'b'], [{ start := 0, stop := 1 }, { start := 1, stop := 2, headSent := some (-2) }],
      some [{ start := 0, stop := 1 }, { start := 1, stop := 2 }], by decide⟩, by decide, _, _, rfl, rfl, by decide +kernel⟩

example : (Demo.orderedFeats [(['c'], ['1']), (['n'], ['2'])]).pyEq (Demo.orderedFeats [(['n'], ['2']), (['c'], ['1'])]) = true ∧
    Demo.orderedFeats [(['c'], ['1']), (['n'], ['2'])] ≠ Demo.orderedFeats [(['n'], ['2']), (['c'], ['1'])] ∧
    writeToStr defaultCols [Demo.orderedFeats [(['c'], ['1']), (['n'], ['2'])]] =
      .ok "1\ta\t_\tN\t_\tc=1|n=2\t0\t_\t_\t_\n\n".toList := by
  refine ⟨by decide +kernel, by decide +kernel, by decide +kernel⟩

end Verif
