import Verif.Props.WriteLoad
import Verif.Props.UdSame
import Verif.Props.Evaluation
import Verif.Proofs.Retag

/-! # Scores of documents that differ in annotations only -/

namespace Verif

theorem SameSpan.multiword {a b : Token} (h : SameSpan a b) : a.isMultiword = b.isMultiword := by
  unfold Token.isMultiword; rw [h.2.2.2]

theorem SameSpan.coincides {a b a' b' : Token} (h : SameSpan a a') (h' : SameSpan b b') :
    a.coincides b = a'.coincides b' := by
  unfold Token.coincides; rw [h.1, h.2.1, h'.1, h'.2.1]

theorem SameSpan.docText {a b : Token} (h : SameSpan a b) (text : Str) : docText text a = docText text b := by
  unfold Verif.docText; rw [h.1, h.2.1]

theorem SameSpan.tokText {a b : Token} (h : SameSpan a b) (text : Str) : tokText text a = tokText text b := by
  unfold Verif.tokText; rw [h.docText, h.2.2.2]

/-- The same words in both lists are grouped into the same tokens. -/
theorem group_length {t t' : Token} (ht : SameSpan t t') : ∀ {g toks g' toks' : List Token},
    List.Forall₂ SameSpan (g ++ toks) (g' ++ toks') → (∀ u ∈ g, t.coincides u = true) →
    (∀ u, toks.head? = some u → t.coincides u = false) → (∀ u ∈ g', t'.coincides u = true) →
    (∀ u, toks'.head? = some u → t'.coincides u = false) → g.length = g'.length
  | [], _, [], _, _, _, _, _, _ => rfl
  | [], toks, u' :: g', toks', h, _, h2, h3, _ => by
    cases toks with
    | nil => cases h
    | cons u toks =>
      rw [List.nil_append, List.cons_append] at h
      cases h with | cons a _ =>
      have e1 := h2 u rfl
      have e2 := h3 u' (by simp)
      rw [ht.coincides a, e2] at e1; cases e1
  | u :: g, toks, [], toks', h, h1, _, _, h4 => by
    cases toks' with
    | nil => cases h
    | cons u' toks' =>
      rw [List.nil_append, List.cons_append] at h
      cases h with | cons a _ =>
      have e1 := h1 u (by simp)
      have e2 := h4 u' rfl
      rw [ht.coincides a, e2] at e1; cases e1
  | u :: g, toks, u' :: g', toks', h, h1, h2, h3, h4 => by
    rw [List.cons_append, List.cons_append] at h
    cases h with | cons a b =>
    simp [group_length ht b (fun x hx => h1 x (by simp [hx])) h2 (fun x hx => h3 x (by simp [hx])) h4]

/-- Two loaded tokens that look alike. -/
def SameTok (u u' : UdToken) : Prop :=
  u.form = u'.form ∧ u.multi = u'.multi ∧ List.Forall₂ (fun r r' => colOf r colFORM = colOf r' colFORM) u.rows u'.rows

theorem forall₂_append_split {α β : Type} {R : α → β → Prop} : ∀ {a b : List α} {a' b' : List β}, a.length = a'.length →
    List.Forall₂ R (a ++ b) (a' ++ b') → List.Forall₂ R a a' ∧ List.Forall₂ R b b'
  | [], _, [], _, _, h => ⟨.nil, h⟩
  | _ :: _, _, _ :: _, _, hl, h => by
    rw [List.cons_append, List.cons_append] at h
    cases h with | cons x y =>
    have := forall₂_append_split (by simpa using hl) y
    exact ⟨.cons x this.1, this.2⟩

/-- The rows show the forms of the words. -/
def ShowsForm (R : Bool → Nat → Token → List Str → Prop) (text : Str) : Prop :=
  ∀ m k t r, R m k t r → colOf r colFORM = if m then tokText text t else noSpaces (tokText text t)

theorem LoadedRow.showsForm (cols : Cols) (text : Str) : ShowsForm (LoadedRow cols text) text :=
  fun _ _ _ _ h => h.form

theorem loadsAs_same {R R' : Bool → Nat → Token → List Str → Prop} {text : Str} (hR : ShowsForm R text)
    (hR' : ShowsForm R' text) : ∀ {k : Nat} {toks : List Token} {us : List UdToken},
    TokensAs R text k toks us → ∀ {toks' : List Token} {us' : List UdToken}, TokensAs R' text k toks' us' →
    List.Forall₂ SameSpan toks toks' → List.Forall₂ SameTok us us' := by
  intro k toks us h
  induction h with
  | nil k =>
    intro toks' us' h' hs
    cases hs
    cases h'
    exact .nil
  | word h1 h2 _ ih =>
    intro toks' us' h' hs
    cases hs with | cons a b =>
    cases h' with
    | word h1' h2' h3' =>
      refine .cons ⟨by rw [a.docText], rfl, .cons ?_ .nil⟩ (ih h3' b)
      rw [hR _ _ _ _ h2, hR' _ _ _ _ h2', a.tokText]
    | multi h1' => rw [a.multiword, h1'] at h1; cases h1
  | multi h1 h2 h3 h4 _ ih =>
    intro toks' us' h' hs
    generalize htt : toks' = tt at h'
    cases h' with
    | nil => subst htt; cases hs
    | word h1' h2' h3' =>
      subst htt
      cases hs with | cons a b =>
      rw [a.multiword, h1'] at h1; cases h1
    | multi h1' h2' h3' h4' h5' =>
      subst htt
      cases hs with | cons a b =>
      have hl := group_length a b h2 h3 h2' h3'
      obtain ⟨b1, b2⟩ := forall₂_append_split hl b
      rw [← hl] at h5'
      refine .cons ⟨by rw [a.docText], rfl, ?_⟩ (ih h5' b2)
      have hlen : ∀ {x y : List Token}, List.Forall₂ SameSpan x y → x.length = y.length := fun h => h.length_eq
      have hc := List.Forall₂.cons a b1
      rw [List.forall₂_iff_get]
      refine ⟨by rw [h4.1, h4'.1]; exact hc.length_eq, ?_⟩
      intro i q1 q2
      have p1 : i < (_ :: _ : List Token).length := h4.1 ▸ q1
      have p2 : i < (_ :: _ : List Token).length := h4'.1 ▸ q2
      have e1 := h4.2 i _ _ (List.getElem?_eq_getElem p1) (List.getElem?_eq_getElem q1)
      have e2 := h4'.2 i _ _ (List.getElem?_eq_getElem p2) (List.getElem?_eq_getElem q2)
      have e3 := hc.get p1 p2
      simp only [List.get_eq_getElem] at e3 ⊢
      rw [hR _ _ _ _ e1, hR' _ _ _ _ e2, e3.tokText]

/-- The rows of the words, one for each word. -/
theorem loadsAs_rows {R : Bool → Nat → Token → List Str → Prop} {text : Str} {k : Nat} {toks : List Token}
    {us : List UdToken} (h : TokensAs R text k toks us) :
    List.Forall₂ (fun t r => ∃ m k, R m k t r) toks (rowsOf us) := by
  induction h with
  | nil k => exact .nil
  | word h1 h2 _ ih => exact .cons ⟨_, _, h2⟩ ih
  | multi h1 h2 h3 h4 _ ih =>
    rw [← List.cons_append, show rowsOf (_ :: _) = _ ++ rowsOf _ from List.flatMap_cons]
    refine List.rel_append ?_ ih
    rw [List.forall₂_iff_get]
    refine ⟨h4.1.symm, fun i q1 q2 => ?_⟩
    exact ⟨_, _, h4.2 i _ _ (List.getElem?_eq_getElem q1) (List.getElem?_eq_getElem q2)⟩

theorem sameTok_words {us us' : List UdToken} (h : List.Forall₂ SameTok us us') : ∀ off,
    List.Forall₂ (fun a b : Span × Bool × List Str => a.1 = b.1 ∧ a.2.1 = b.2.1 ∧ colOf a.2.2 colFORM = colOf b.2.2 colFORM)
      (tokWords off us) (tokWords off us') := by
  induction h with
  | nil => exact fun _ => .nil
  | cons a _ ih =>
    intro off
    simp only [tokWords]
    rw [a.1]
    refine List.rel_append ?_ (ih _)
    rw [List.forall₂_map_left_iff, List.forall₂_map_right_iff]
    exact a.2.2.imp (fun _ _ h => ⟨rfl, a.2.1, h⟩)

theorem sameTok_forms {us us' : List UdToken} (h : List.Forall₂ SameTok us us') :
    us.flatMap UdToken.form = us'.flatMap UdToken.form := by
  induction h with
  | nil => rfl
  | cons a _ ih => simp [List.flatMap_cons, a.1, ih]

theorem tokWords_rows (us : List UdToken) : ∀ off, (tokWords off us).map (fun x => x.2.2) = rowsOf us := by
  induction us with
  | nil => exact fun _ => rfl
  | cons u us ih =>
    intro off
    simp only [tokWords, List.map_append, ih, List.map_map, Function.comp_def, List.map_id']
    rfl

theorem sentences_tokens {d : Document} (h : Built d) : (d.sentences.map d.sentenceTokens).flatten = d.tokens :=
  (C03_sentences_partition h).2.2.2

theorem allTokens_eq {docs : List Document} (h : ∀ d ∈ docs, Built d) :
    (sentencesOf docs).flatMap Prod.snd = allTokens docs := by
  induction docs with
  | nil => rfl
  | cons d docs ih =>
    rw [sentencesOf, List.flatMap_cons, List.flatMap_append, allTokens, List.flatMap_cons,
      ← sentences_tokens (h d (by simp)), List.flatMap_def, List.map_map]
    congr 1
    exact ih (fun x hx => h x (by simp [hx]))

theorem words_of_loads {R : Str → Bool → Nat → Token → List Str → Prop} {docs : List Document} (hb : ∀ d ∈ docs, Built d)
    {ud : UD} {sents : List (List UdToken)} (hu : UdOf sents ud)
    (h : List.Forall₂ (fun (p : Str × List Token) us => TokensAs (R p.1) p.1 0 p.2 us) (sentencesOf docs) sents) :
    List.Forall₂ (fun t (w : UDWord) => ∃ text m k, R text m k t w.columns) (allTokens docs) ud.words := by
  have h1 : ud.words.map UDWord.columns = rowsOf sents.flatten := by
    rw [← tokWords_rows _ 0, ← hu.words, List.map_map]; rfl
  have h2 : List.Forall₂ (fun t r => ∃ text m k, R text m k t r) (allTokens docs) (rowsOf sents.flatten) := by
    rw [← allTokens_eq hb]
    clear hu h1 hb
    generalize sentencesOf docs = ps at h
    induction h with
    | nil => exact .nil
    | cons a _ ih =>
      rw [List.flatMap_cons, List.flatten_cons, rowsOf, List.flatMap_append]
      exact List.rel_append ((loadsAs_rows a).imp fun _ _ ⟨m, k, h⟩ => ⟨_, m, k, h⟩) ih
  rw [← h1, List.forall₂_map_right_iff] at h2
  exact h2

theorem skeleton_sentences {gold pred : List Document} (h : List.Forall₂ SameSkeleton gold pred) :
    List.Forall₂ (fun a b : Str × List Token => a.1 = b.1 ∧ List.Forall₂ SameSpan a.2 b.2) (sentencesOf gold) (sentencesOf pred) := by
  induction h with
  | nil => exact .nil
  | cons a _ ih =>
    rw [sentencesOf, List.flatMap_cons]
    refine List.rel_append ?_ ih
    rw [a.2.1, List.forall₂_map_left_iff, List.forall₂_map_right_iff, List.forall₂_same]
    intro s _
    refine ⟨a.1, ?_⟩
    exact List.forall₂_take _ (List.forall₂_drop _ a.2.2)

theorem sameLook_of_skeleton {lower : Str → Str} {R R' : Str → Bool → Nat → Token → List Str → Prop}
    (hR : ∀ text, ShowsForm (R text) text) (hR' : ∀ text, ShowsForm (R' text) text) {gold pred : List Document}
    (h : List.Forall₂ SameSkeleton gold pred) {ud ud' : UD} {sents sents' : List (List UdToken)}
    (hu : UdOf sents ud) (hu' : UdOf sents' ud')
    (h1 : List.Forall₂ (fun (p : Str × List Token) us => TokensAs (R p.1) p.1 0 p.2 us) (sentencesOf gold) sents)
    (h2 : List.Forall₂ (fun (p : Str × List Token) us => TokensAs (R' p.1) p.1 0 p.2 us) (sentencesOf pred) sents') :
    ud.characters = ud'.characters ∧ List.Forall₂ (SameLook lower) ud.words ud'.words := by
  have hs := skeleton_sentences h
  have key : List.Forall₂ SameTok sents.flatten sents'.flatten := by
    clear hu hu' h
    generalize sentencesOf gold = ps at *
    generalize sentencesOf pred = ps' at *
    induction hs generalizing sents sents' with
    | nil => cases h1; cases h2; exact .nil
    | cons a _ ih =>
      cases h1 with | cons b1 c1 =>
      cases h2 with | cons b2 c2 =>
      rw [List.flatten_cons, List.flatten_cons]
      refine List.rel_append ?_ (ih c1 c2)
      rw [← a.1] at b2
      exact loadsAs_same (hR _) (hR' _) b1 b2 a.2
  refine ⟨by rw [hu.characters, hu'.characters, sameTok_forms key], ?_⟩
  have := sameTok_words key 0
  rw [← hu.words, ← hu'.words, List.forall₂_map_left_iff, List.forall₂_map_right_iff] at this
  exact this.imp (fun _ _ h => ⟨h.1, h.2.1, by rw [h.2.2]⟩)

theorem agreeing_eq {α : Type} [DecidableEq α] {R R' : Token → UDWord → Prop} {P : UDWord → UDWord → Prop} {f : Token → α}
    (hP : ∀ t u w w', R t w → R' u w' → (P w w' ↔ f t = f u)) {ts us : List Token} {ws ws' : List UDWord}
    (h : List.Forall₂ R ts ws) (h' : List.Forall₂ R' us ws') : agreeing P ws ws' = samePlaces f ts us := by
  unfold agreeing samePlaces
  induction h generalizing us ws' with
  | nil => simp
  | cons a _ ih =>
    cases h' with
    | nil => simp
    | cons b c =>
      simp only [List.zip_cons_cons, List.filter_cons, decide_eq_true_eq]
      have hp := hP _ _ _ _ a b
      split
      · rename_i h1
        rw [if_pos (hp.1 (by simpa using h1)), List.length_cons, List.length_cons, ih c]
      · rename_i h1
        rw [if_neg (fun h2 => h1 (by simpa using hp.2 h2)), ih c]

end Verif
